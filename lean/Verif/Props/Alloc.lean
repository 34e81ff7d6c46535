import Verif.Model.Alloc
import Verif.Lemmas.Safety

/-!
# C96: running out of memory
-/

namespace Mdns

set_option linter.unusedSectionVars false

open M

/-! ### Enough memory -/

theorem cacheInA_done (env : Env) (c : Core) (r : Resource) (src : Addr) :
    c.cacheInA env r src .done = c.cacheIn env r src := by
  unfold Core.cacheInA Core.cacheIn
  cases h : c.flush env r with
  | ub => rfl
  | hang => rfl
  | ok c =>
    dsimp only
    split
    · rfl
    · unfold Core.insertA Core.insert
      cases hi : (c.cache (bucket r.name lprime)).findIdx? (fun e => e.rr.is r.name r.type && aMatch r e.rr) with
      | some k => simp only [hi]
      | none =>
        simp only [hi]
        rfl

variable {Q : Type} [QOps Q]

theorem inAnswerA_done (env : Env) (src : Addr) (a : Resource) (did : Bool) :
    (inAnswerA env src a .done did : M Q Bool) = inAnswer env src a did := by
  have h : (inAnswerA.rest env src a .done : M Q Unit) = inAnswer.rest env src a := by
    unfold inAnswerA.rest inAnswer.rest
    simp only [cacheInA_done]
  unfold inAnswerA inAnswer
  rw [h]
  rfl

theorem inAnswersA_done (env : Env) (src : Addr) {mem : Nat → Store} (hm : ∀ k, mem k = .done) :
    ∀ (as : List Resource) (k : Nat) (did : Bool), (inAnswersA env src mem k as did : M Q Unit) = inAnswers env src as did
  | [], _, _ => rfl
  | a :: as, k, did => by
    unfold inAnswersA inAnswers
    rw [hm k, inAnswerA_done]
    congr 1
    funext did
    exact inAnswersA_done env src hm as (k + 1) did

/-- With enough memory it is the function modelled elsewhere. -/
theorem C96_enough (env : Env) (now : TV) (m : Msg) (src : Addr) {mem : Nat → Store} (hm : ∀ k, mem k = .done) :
    (inMsgA env now m src mem : M Q Nat) = inMsg env now m src := by
  unfold inMsgA inMsg
  simp only [inAnswersA_done env src hm]

/-! ### A record that cannot be stored -/

/-- A record with its lifetime set to zero, or as it is. -/
def Resource.zeroIf (z : Bool) (a : Resource) : Resource := { a with ttl := if z then 0 else a.ttl }

theorem Resource.zeroIf_false (a : Resource) : a.zeroIf false = a := rfl
theorem Resource.WF.zeroIf {a : Resource} (h : a.WF) (z : Bool) : (a.zeroIf z).WF := ⟨h.a, h.aaaa, h.name, h.srv, h.other⟩
theorem aMatch_zeroIf (a : Resource) (z : Bool) (b : Answer) : aMatch (a.zeroIf z) b = aMatch a b := rfl

theorem deleteF_none {env : Env} {r : Resource} {i n : Nat} {c : Core}
    (h : (c.cache i).findIdx? (fun e => e.rr.is r.name r.type && aMatch r e.rr) = none) :
    Core.deleteF env r i (n + 1) c = .ok c := by
  unfold Core.deleteF
  rw [h]

/-- Failing to store a record is like receiving it with a lifetime of zero if it is unknown, and otherwise needs no memory. -/
theorem cacheInA_refused (env : Env) (c : Core) (r : Resource) (src : Addr) :
    ∃ z, c.cacheInA env r src .refused = c.cacheIn env (r.zeroIf z) src := by
  by_cases ht : r.ttl = 0
  · refine ⟨false, ?_⟩
    unfold Core.cacheInA Core.cacheIn
    rw [Resource.zeroIf_false]
    cases c.flush env r with
    | ub => rfl
    | hang => rfl
    | ok c => simp only [if_pos ht]
  · cases hf : c.flush env r with
    | ub =>
      refine ⟨false, ?_⟩
      unfold Core.cacheInA Core.cacheIn
      rw [Resource.zeroIf_false, hf]
    | hang =>
      refine ⟨false, ?_⟩
      unfold Core.cacheInA Core.cacheIn
      rw [Resource.zeroIf_false, hf]
    | ok c1 =>
      cases hi : (c1.cache (bucket r.name lprime)).findIdx? (fun e => e.rr.is r.name r.type && aMatch r e.rr) with
      | some k =>
        refine ⟨false, ?_⟩
        unfold Core.cacheInA Core.cacheIn
        rw [Resource.zeroIf_false, hf]
        simp only [if_neg ht]
        unfold Core.insertA Core.insert
        simp only [hi]
      | none =>
        refine ⟨true, ?_⟩
        unfold Core.cacheInA Core.cacheIn
        have hz : c.flush env (r.zeroIf true) = .ok c1 := hf
        rw [hf, hz]
        simp only [if_neg ht]
        rw [if_pos (show (r.zeroIf true).ttl = 0 from rfl)]
        refine Eq.trans ?_ (deleteF_none (r := r.zeroIf true) (c := c1) hi).symm
        unfold Core.insertA
        simp only [hi]

/-- What `mem` allows: every answer as it is, or with a lifetime of zero if it could not be stored. -/
inductive Unstored (mem : Nat → Store) : Nat → List Resource → List Resource → Prop
  | nil {k : Nat} : Unstored mem k [] []
  | cons {k : Nat} {a : Resource} {as as' : List Resource} (z : Bool) (h : z = true → mem k = .refused)
      (n : Unstored mem (k + 1) as as') : Unstored mem k (a :: as) (a.zeroIf z :: as')

theorem Unstored.refl (mem : Nat → Store) : ∀ (k : Nat) (as : List Resource), Unstored mem k as as
  | _, [] => .nil
  | k, a :: as => .cons (a := a) false nofun (Unstored.refl mem (k + 1) as)

theorem Unstored.wf {mem : Nat → Store} {k : Nat} {as as' : List Resource} (h : Unstored mem k as as')
    (w : ∀ a ∈ as, a.WF) : ∀ a ∈ as', a.WF := by
  induction h with
  | nil => exact w
  | cons z _ _ ih =>
    exact List.forall_mem_cons.mpr ⟨(w _ (by simp)).zeroIf z, ih fun a m => w a (by simp [m])⟩

/-! ### The receive callback stays as it is -/

/-- No receive callback is set by `x`. -/
def Mute {α : Type} (x : M Q α) : Prop := ∀ d a d', d.c.recvCb = false → x d = .ok (a, d') → d'.c.recvCb = false

namespace Mute

variable {α β : Type}

theorem bind {x : M Q α} {f : α → M Q β} (h : Mute x) (hf : ∀ a, Mute (f a)) : Mute (x >>= f) := by
  intro d b d' hd e
  cases hx : x d with
  | ub => rw [M.bind_ub hx] at e; cases e
  | hang => rw [M.bind_hang hx] at e; cases e
  | ok ad =>
    obtain ⟨a, d1⟩ := ad
    rw [M.bind_ok hx] at e
    exact hf a d1 b d' (h d a d1 hd hx) e

theorem pure (a : α) : Mute (Pure.pure a : M Q α) := by
  intro d a d' hd e
  cases e
  exact hd

theorem ub : Mute (M.ub : M Q α) := by
  intro d a d' hd e
  cases e

theorem core : Mute (M.core : M Q Core) := by
  intro d a d' hd e
  cases e
  exact hd

theorem modC {f : Core → Core} (h : ∀ c, c.recvCb = false → (f c).recvCb = false) : Mute (M.modC f : M Q Unit) := by
  intro d a d' hd e
  cases e
  exact h _ hd

theorem liftC {f : Core → Res (α × Core)} (h : ∀ c a c', c.recvCb = false → f c = .ok (a, c') → c'.recvCb = false) :
    Mute (M.liftC f : M Q α) := by
  intro d a d' hd e
  unfold M.liftC at e
  split at e
  · rename_i a1 c1 hf
    cases e
    exact h _ _ _ hd hf
  · cases e
  · cases e

theorem liftQ {f : Q → Res (α × Q)} : Mute (M.liftQ f : M Q α) := by
  intro d a d' hd e
  unfold M.liftQ at e
  split at e
  · cases e; exact hd
  · cases e
  · cases e

theorem getRec (r : Nat) : Mute (M.getRec r : M Q Rec) := by
  intro d a d' hd e
  unfold M.getRec at e
  split at e
  · cases e; exact hd
  · cases e

theorem modRec (r : Nat) (f : Rec → Rec) : Mute (M.modRec r f : M Q Unit) := by
  intro d a d' hd e
  unfold M.modRec at e
  split at e
  · cases e; exact hd
  · cases e

theorem ite {c : Prop} [Decidable c] {x y : M Q α} (h : Mute x) (h' : Mute y) : Mute (if c then x else y) := by
  split
  · exact h
  · exact h'

theorem rSend (r : Nat) : Mute (Mdns.rSend r : M Q Unit) := by
  unfold Mdns.rSend
  refine bind (getRec r) fun x => ite (modC fun _ h => h) (ite (bind liftQ fun _ => liftQ) ?_)
  exact bind (modC fun _ h => h) fun _ => bind liftQ fun _ => liftQ

theorem rDone (r : Nat) : Mute (Mdns.rDone r : M Q Unit) := by
  unfold Mdns.rDone Mdns.uRemove Mdns.freeRec
  exact bind (getRec r) fun x => bind (modC fun _ h => h) fun _ => bind (modC fun _ h => h) fun _ =>
    bind (getRec r) fun _ => bind (modC fun _ h => h) fun _ => liftQ

theorem done (r : Nat) : Mute (Mdns.done r : M Q Unit) := by
  unfold Mdns.done
  exact bind (getRec r) fun x => ite (bind liftQ fun _ => rDone r) (bind (modRec _ _) fun _ => rSend r)

theorem conflict (r : Nat) : Mute (Mdns.conflict r : M Q Unit) := by
  unfold Mdns.conflict
  refine bind (getRec r) fun x => ?_
  cases x.conflict with
  | none => exact ub
  | some _ => exact bind (modC fun _ h => h) fun _ => done r

theorem rScan (host : Bytes) (type : Nat) : ∀ l, Mute (Mdns.rScan host type l : M Q (Option Nat))
  | [] => pure _
  | r :: rest => by
    unfold Mdns.rScan
    exact bind (getRec r) fun x => ite (pure _) (rScan host type rest)

theorem rFirst (host : Bytes) (type : Nat) : Mute (Mdns.rFirst host type : M Q (Option Nat)) := by
  unfold Mdns.rFirst
  exact bind core fun c => rScan _ _ _

theorem refreshLocals (env : Env) (b : Bool) (c : Core) (h : c.recvCb = false) : (Mdns.refreshLocals env b c).recvCb = false := by
  unfold Mdns.refreshLocals
  split
  · exact h
  · split <;> exact h

theorem isLocal (env : Env) (src : Addr) : Mute (Mdns.isLocal env src : M Q Bool) := by
  unfold Mdns.isLocal
  exact bind core fun c => ite (pure _) (bind (modC (refreshLocals env false)) fun _ => bind core fun _ => pure _)

end Mute

namespace Core

theorem qReset_mute {c c' : Core} {q : Nat} (e : c.qReset q = .ok c') : c'.recvCb = c.recvCb := by
  unfold Core.qReset at e
  split at e
  · cases e
  · cases e; rfl

theorem qDone_mute {c c' : Core} {q : Nat} (e : c.qDone q = .ok c') : c'.recvCb = c.recvCb := by
  unfold Core.qDone at e
  split at e
  · cases e
  · dsimp only at e
    split at e
    · cases e; rfl
    · cases e

theorem query_mute {c c' : Core} {h : Bytes} {t : Nat} {a : Option Nat} (e : c.query h t a = .ok c') : c'.recvCb = c.recvCb := by
  unfold Core.query at e
  split at e
  · split at e
    · exact qDone_mute e
    · split at e
      · cases e
      · cases e; rfl
  · split at e
    · cases e; rfl
    · dsimp only at e
      split at e
      · rename_i c1 h1
        have := qReset_mute h1
        split at e
        · cases e
        · cases e; exact this
      · cases e
      · cases e
  · cases e
  · cases e

theorem register_mute : ∀ (l : List (Bytes × Nat × Nat)) {c c' : Core}, c.register l = .ok c' → c'.recvCb = c.recvCb
  | [], c, c', e => by cases e; rfl
  | (host, type, cb) :: rest, c, c', e => by
    unfold Core.register at e
    split at e
    · rename_i c1 h1
      exact (register_mute rest e).trans (query_mute h1)
    · cases e
    · cases e

theorem callAnswer_mute {env : Env} {c c' : Core} {q : Nat} {rr : Answer} {b : Bool} (e : c.callAnswer env q rr = .ok (b, c')) :
    c'.recvCb = c.recvCb := by
  unfold Core.callAnswer at e
  split at e
  · cases e
  · dsimp only at e
    split at e
    · rename_i c1 h1
      cases e
      have := register_mute _ h1
      exact this
    · cases e
    · cases e

theorem qAnswer_mute {env : Env} {c c' : Core} {x : Cached} (e : c.qAnswer env x = .ok c') : c'.recvCb = c.recvCb := by
  unfold Core.qAnswer at e
  split at e
  · cases e; rfl
  · split at e
    · rename_i stop c1 h1
      have := callAnswer_mute h1
      split at e
      · exact (qDone_mute e).trans this
      · cases e; exact this
    · cases e
    · cases e

theorem cExpireF_mute {env : Env} {i : Nat} : ∀ (n k : Nat) {c c' : Core}, cExpireF env i n k c = .ok c' → c'.recvCb = c.recvCb
  | 0, _, _, _, e => by cases e
  | n + 1, k, c, c', e => by
    unfold Core.cExpireF at e
    split at e
    · cases e; rfl
    · split at e
      · split at e
        · rename_i c1 h1
          have := qAnswer_mute h1
          exact (cExpireF_mute n k e).trans this
        · cases e
        · cases e
      · exact cExpireF_mute n (k + 1) e

theorem cExpire_mute {env : Env} {i : Nat} {c c' : Core} (e : c.cExpire env i = .ok c') : c'.recvCb = c.recvCb :=
  cExpireF_mute _ _ e

theorem flush_mute {env : Env} {c c' : Core} {r : Resource} (e : c.flush env r = .ok c') : c'.recvCb = c.recvCb := by
  unfold Core.flush at e
  split at e
  · have := cExpire_mute e
    exact this
  · cases e; rfl

theorem deleteF_mute {env : Env} {r : Resource} {i : Nat} : ∀ (n : Nat) {c c' : Core}, deleteF env r i n c = .ok c' →
    c'.recvCb = c.recvCb
  | 0, _, _, e => by cases e
  | n + 1, c, c', e => by
    unfold Core.deleteF at e
    split at e
    · cases e; rfl
    · split at e
      · rename_i c1 h1
        have := cExpire_mute h1
        exact (deleteF_mute n e).trans this
      · cases e
      · cases e

theorem insert_mute {env : Env} {c c' : Core} {r : Resource} {src : Addr} (e : c.insert env r src = .ok c') :
    c'.recvCb = c.recvCb := by
  unfold Core.insert at e
  dsimp only at e
  split at e
  · cases e; rfl
  · split at e
    · split at e
      · cases e; rfl
      · split at e
        · rename_i stop c1 h1
          have := callAnswer_mute h1
          split at e
          · split at e
            · exact (qDone_mute e).trans this
            · cases e
          · cases e; exact this
        · cases e
        · cases e
    · cases e
    · cases e

theorem cacheIn_mute {env : Env} {c c' : Core} {r : Resource} {src : Addr} (e : c.cacheIn env r src = .ok c') :
    c'.recvCb = c.recvCb := by
  unfold Core.cacheIn at e
  split at e
  · rename_i c1 h1
    split at e
    · exact (deleteF_mute _ e).trans (flush_mute h1)
    · exact (insert_mute e).trans (flush_mute h1)
  · cases e
  · cases e

end Core

theorem Mute.rest (env : Env) (src : Addr) (a : Resource) : Mute (inAnswer.rest env src a : M Q Unit) := by
  unfold inAnswer.rest
  refine bind (modC fun c h => ?_) fun _ => liftC fun c u c' hc e => ?_
  · split <;> exact h
  · cases h : c.cacheIn env a src with
    | ub => rw [h] at e; cases e
    | hang => rw [h] at e; cases e
    | ok c1 =>
      rw [h] at e
      cases e
      exact (Core.cacheIn_mute h).trans hc

/-- What happens once it is known which record an answer is in conflict with; `rest` is what remains to be done. -/
def ansK (env : Env) (src : Addr) (rest : M Q Unit) (did : Bool) : Option Nat → M Q Bool
  | none => do
    rest
    pure did
  | some r => do
    if !did then modC (refreshLocals env true)
    if ← isLocal env src then pure true
    else do
      conflict r
      rest
      pure true

/-- An answer. -/
def ansW (env : Env) (src : Addr) (a : Resource) (rest : M Q Unit) (did : Bool) : M Q Bool := do
  let r ← rFirst a.name a.type
  match r with
  | none => (pure none : M Q (Option Nat)) >>= ansK env src rest did
  | some r => do
    let x ← getRec r
    (pure (if x.unique ≠ 0 ∧ x.modified ∧ aMatch a x.rr then some r else none) : M Q (Option Nat)) >>= ansK env src rest did

theorem inAnswer_eq (env : Env) (src : Addr) (a : Resource) (did : Bool) :
    (inAnswer env src a did : M Q Bool) = ansW env src a (inAnswer.rest env src a) did := rfl

theorem inAnswerA_eq (env : Env) (src : Addr) (a : Resource) (s : Store) (did : Bool) :
    (inAnswerA env src a s did : M Q Bool) = ansW env src a (inAnswerA.rest env src a s) did := rfl

theorem Mute.ansW {env : Env} {src : Addr} {a : Resource} {rest : M Q Unit} (h : Mute rest) (did : Bool) :
    Mute (Mdns.ansW env src a rest did) := by
  have hk : ∀ bad, Mute (ansK env src rest did bad) := by
    intro bad
    cases bad with
    | none => exact bind h fun _ => pure _
    | some r =>
      unfold ansK
      have h1 : Mute (do if ← Mdns.isLocal env src then Pure.pure true else do
            Mdns.conflict r
            rest
            Pure.pure true : M Q Bool) :=
        bind (isLocal env src) fun _ => ite (pure _) (bind (conflict r) fun _ => bind h fun _ => pure _)
      exact ite (bind (modC (refreshLocals env true)) fun _ => h1) h1
  unfold Mdns.ansW
  refine bind (rFirst _ _) fun r => ?_
  cases r with
  | none => exact bind (pure _) hk
  | some r => exact bind (getRec r) fun _ => bind (pure _) hk

theorem Mute.inAnswer (env : Env) (src : Addr) (a : Resource) (did : Bool) : Mute (Mdns.inAnswer env src a did : M Q Bool) := by
  rw [inAnswer_eq]
  exact Mute.ansW (Mute.rest env src a) did

/-! ### A packet -/

/-- Without a receive callback `x` does what `y z` does for some `z`; `z` only if `p`. -/
def Like {α : Type} (p : Prop) (x : M Q α) (y : Bool → M Q α) : Prop :=
  ∀ d, d.c.recvCb = false → ∃ z, (z = true → p) ∧ x d = y z d

namespace Like

variable {α β : Type} {p : Prop}

theorem same (x : M Q α) : Like p x fun _ => x := fun _ _ => ⟨false, nofun, rfl⟩

theorem bind {x : M Q α} {f : α → M Q β} {g : Bool → α → M Q β} (h : Mute x) (hf : ∀ a, Like p (f a) fun z => g z a) :
    Like p (x >>= f) fun z => x >>= g z := by
  intro d hd
  cases hx : x d with
  | ub => exact ⟨false, nofun, (M.bind_ub hx).trans (M.bind_ub hx).symm⟩
  | hang => exact ⟨false, nofun, (M.bind_hang hx).trans (M.bind_hang hx).symm⟩
  | ok ad =>
    obtain ⟨a, d1⟩ := ad
    obtain ⟨z, hz, e⟩ := hf a d1 (h d a d1 hd hx)
    exact ⟨z, hz, (M.bind_ok hx).trans (e.trans (M.bind_ok hx).symm)⟩

theorem andThen {x : M Q α} {y : Bool → M Q α} {f : α → M Q β} (h : Like p x y) : Like p (x >>= f) fun z => y z >>= f := by
  intro d hd
  obtain ⟨z, hz, e⟩ := h d hd
  refine ⟨z, hz, ?_⟩
  cases hx : x d with
  | ub => exact (M.bind_ub hx).trans (M.bind_ub (e.symm.trans hx)).symm
  | hang => exact (M.bind_hang hx).trans (M.bind_hang (e.symm.trans hx)).symm
  | ok ad =>
    obtain ⟨a, d1⟩ := ad
    exact (M.bind_ok hx).trans (M.bind_ok (e.symm.trans hx)).symm

theorem ite {c : Prop} [Decidable c] {x x' : M Q α} {y y' : Bool → M Q α} (h : Like p x y) (h' : Like p x' y') :
    Like p (if c then x else x') fun z => if c then y z else y' z := by
  by_cases hc : c
  · simp only [if_pos hc]; exact h
  · simp only [if_neg hc]; exact h'

theorem rest (env : Env) (src : Addr) (a : Resource) {s : Store} (hs : s ≠ .nameless) :
    Like (s = .refused) (inAnswerA.rest env src a s : M Q Unit) fun z => inAnswer.rest env src (a.zeroIf z) := by
  intro d hd
  have key : ∃ z, (z = true → s = .refused) ∧ d.c.cacheInA env a src s = d.c.cacheIn env (a.zeroIf z) src := by
    cases s with
    | done => exact ⟨false, nofun, by rw [cacheInA_done, Resource.zeroIf_false]⟩
    | refused =>
      obtain ⟨z, e⟩ := cacheInA_refused env d.c a src
      exact ⟨z, fun _ => rfl, e⟩
    | nameless => exact absurd rfl hs
  obtain ⟨z, hz, e⟩ := key
  refine ⟨z, hz, ?_⟩
  have h0 : ∀ b : Resource, (modC fun c => if c.recvCb then { c with log := c.log ++ [Event.received b] } else c : M Q Unit) d =
      .ok ((), d) := by
    intro b
    show Res.ok ((), ({ d with c := if d.c.recvCb then _ else d.c } : D Q)) = _
    rw [if_neg (by simp [hd])]
  refine (M.bind_ok (h0 a)).trans (Eq.trans ?_ (M.bind_ok (h0 (a.zeroIf z))).symm)
  unfold M.liftC
  simp only [e]

theorem inAnswer (env : Env) (src : Addr) (a : Resource) {s : Store} (hs : s ≠ .nameless) (did : Bool) :
    Like (s = .refused) (inAnswerA env src a s did : M Q Bool) fun z => Mdns.inAnswer env src (a.zeroIf z) did := by
  have hr := Like.rest (Q := Q) env src a hs
  have hk : ∀ bad, Like (s = .refused) (ansK env src (inAnswerA.rest env src a s : M Q Unit) did bad) fun z =>
      ansK env src (inAnswer.rest env src (a.zeroIf z)) did bad := by
    intro bad
    cases bad with
    | none => exact andThen hr
    | some r =>
      have h1 : Like (s = .refused) (do if ← Mdns.isLocal env src then pure true else do
            Mdns.conflict r
            inAnswerA.rest env src a s
            pure true : M Q Bool) fun z => (do if ← Mdns.isLocal env src then pure true else do
            Mdns.conflict r
            inAnswer.rest env src (a.zeroIf z)
            pure true) :=
        bind (Mute.isLocal env src) fun b => ite (same _) (bind (Mute.conflict r) fun _ => andThen hr)
      exact ite (bind (Mute.modC (Mute.refreshLocals env true)) fun _ => h1) h1
  rw [inAnswerA_eq]
  simp only [inAnswer_eq]
  unfold ansW
  refine bind (Mute.rFirst _ _) fun r => ?_
  cases r with
  | none => exact bind (Mute.pure _) hk
  | some r => exact bind (Mute.getRec r) fun _ => bind (Mute.pure _) hk

end Like

theorem inAnswersA_like (env : Env) (src : Addr) {mem : Nat → Store} (hm : ∀ k, mem k ≠ .nameless) :
    ∀ (as : List Resource) (k : Nat) (did : Bool) (d : D Q), d.c.recvCb = false →
      ∃ as', Unstored mem k as as' ∧ inAnswersA env src mem k as did d = inAnswers env src as' did d
  | [], k, did, d, _ => ⟨[], .nil, rfl⟩
  | a :: as, k, did, d, hd => by
    obtain ⟨z, hz, e⟩ := Like.inAnswer (Q := Q) env src a (hm k) did d hd
    cases hx : inAnswerA env src a (mem k) did d with
    | ub =>
      obtain ⟨as', h⟩ : ∃ as', Unstored mem (k + 1) as as' := ⟨_, Unstored.refl mem (k + 1) as⟩
      refine ⟨_, .cons z hz h, ?_⟩
      unfold inAnswersA inAnswers
      rw [M.bind_ub hx, M.bind_ub (e.symm.trans hx)]
    | hang =>
      obtain ⟨as', h⟩ : ∃ as', Unstored mem (k + 1) as as' := ⟨_, Unstored.refl mem (k + 1) as⟩
      refine ⟨_, .cons z hz h, ?_⟩
      unfold inAnswersA inAnswers
      rw [M.bind_hang hx, M.bind_hang (e.symm.trans hx)]
    | ok ad =>
      obtain ⟨did1, d1⟩ := ad
      have h1 := Mute.inAnswer (Q := Q) env src _ did d did1 d1 hd (e.symm.trans hx)
      obtain ⟨as', h, e2⟩ := inAnswersA_like env src hm as (k + 1) did1 d1 h1
      refine ⟨_, .cons z hz h, ?_⟩
      unfold inAnswersA inAnswers
      rw [M.bind_ok hx, M.bind_ok (e.symm.trans hx)]
      exact e2

/-- Without a receive callback, and if `strdup` of the name in the data succeeds: a packet some of whose answers cannot be stored is like
the packet in which some of those have a lifetime of zero. -/
theorem C96_packet_partial (env : Env) (now : TV) (m : Msg) (src : Addr) {mem : Nat → Store} (hm : ∀ k, mem k ≠ .nameless)
    (d : D Q) (hd : d.c.recvCb = false) :
    ∃ an, Unstored mem 0 m.an an ∧ inMsgA env now m src mem d = inMsg env now { m with an := an } src d := by
  have h0 : Unstored mem 0 m.an m.an := Unstored.refl mem 0 m.an
  have hc : (core : M Q Core) d = .ok (d.c, d) := rfl
  unfold inMsgA inMsg
  simp only [M.bind_ok hc]
  cases hs : d.c.shutdown with
  | true => exact ⟨m.an, h0, rfl⟩
  | false =>
    simp only [Bool.false_eq_true, if_false]
    have h1 : (modC fun c => { c with now := now } : M Q Unit) d = .ok ((), ⟨{ d.c with now := now }, d.q⟩) := rfl
    simp only [M.bind_ok h1]
    cases hl : (isLocal env src : M Q Bool) ⟨{ d.c with now := now }, d.q⟩ with
    | ub => exact ⟨m.an, h0, (M.bind_ub hl).trans (M.bind_ub hl).symm⟩
    | hang => exact ⟨m.an, h0, (M.bind_hang hl).trans (M.bind_hang hl).symm⟩
    | ok bd =>
      obtain ⟨b, d1⟩ := bd
      have hd1 := Mute.isLocal (Q := Q) env src ⟨{ d.c with now := now }, d.q⟩ b d1 hd hl
      simp only [M.bind_ok hl]
      cases b with
      | true => exact ⟨m.an, h0, rfl⟩
      | false =>
        simp only [Bool.false_eq_true, if_false]
        cases hq : m.header.qr with
        | false => exact ⟨m.an, h0, rfl⟩
        | true =>
          obtain ⟨an, hu, e⟩ := inAnswersA_like env src hm m.an 0 false d1 hd1
          refine ⟨an, hu, ?_⟩
          simp only [Bool.not_true, Bool.false_eq_true, if_false]
          cases hx : inAnswersA env src mem 0 m.an false d1 with
          | ub => exact (M.bind_ub hx).trans (M.bind_ub (e.symm.trans hx)).symm
          | hang => exact (M.bind_hang hx).trans (M.bind_hang (e.symm.trans hx)).symm
          | ok ad =>
            obtain ⟨a, d2⟩ := ad
            exact (M.bind_ok hx).trans (M.bind_ok (f := fun _ => pure 0) (e.symm.trans hx)).symm

/-! ### Histories with too little memory -/

/-- What the caller sees to when memory is short: as for any call; the `strdup` of a name in received data succeeds. -/
def FailSafe (c : Core) : Fail → Prop
  | .recv _ m _ mem => (∀ a ∈ m.an, a.WF) ∧ ∀ k, mem k ≠ .nameless
  | .setHost r => (c.recs r).isSome
  | _ => True

theorem restA_ok {env : Env} {src : Addr} {a : Resource} {s : Store} (hs : s ≠ .nameless) (ha : a.WF) {c : Core} {l : Lists}
    (h : DInv c l) : ∃ c', inAnswerA.rest env src a s ⟨c, l⟩ = .ok ((), ⟨c', l⟩) ∧ DInv c' l := by
  have key : ∃ z, (c.received a).cacheInA env a src s = (c.received a).cacheIn env (a.zeroIf z) src := by
    cases s with
    | done => exact ⟨false, by rw [cacheInA_done, Resource.zeroIf_false]⟩
    | refused => exact cacheInA_refused env _ a src
    | nameless => exact absurd rfl hs
  obtain ⟨z, e⟩ := key
  obtain ⟨_, c', _, _, e2, hc, _⟩ := (h.cinv.received a).cacheIn env (ha.zeroIf z) src
  refine ⟨c', ?_, hc.inv, RInv.rest (h.rinv.congr (c' := c.received a) rfl rfl rfl) hc.rest⟩
  unfold inAnswerA.rest
  rw [M.bind_ok modC_ok]
  have e0 : (if c.recvCb = true then { c with log := c.log ++ [Event.received a] } else c) = c.received a := by
    unfold Core.received
    split
    · rfl
    · exact (heard_nil c).symm
  rw [e0]
  refine liftC_ok ?_
  rw [e, e2]
  rfl

theorem inAnswerA_ok {env : Env} {src : Addr} {a : Resource} {s : Store} (hs : s ≠ .nameless) (ha : a.WF) {did : Bool} {c : Core}
    {l : Lists} (h : DInv c l) : ∃ did' c' l', inAnswerA env src a s did ⟨c, l⟩ = .ok (did', ⟨c', l'⟩) ∧ DInv c' l' := by
  have hk : ∀ r x, c.recs r = some x → x.unique ≠ 0 → ∃ did' c' l',
      ansK env src (inAnswerA.rest env src a s) did (some r) ⟨c, l⟩ = .ok (did', ⟨c', l'⟩) ∧ DInv c' l' := by
    intro r x hx hu
    have e1 : ∃ c1 : Core, ansK env src (inAnswerA.rest env src a s) did (some r) ⟨c, l⟩ = (do
        if ← isLocal env src then pure true
        else do
          Mdns.conflict r
          inAnswerA.rest env src a s
          pure true : M Lists Bool) ⟨c1, l⟩ ∧ Locals env c c1 := by
      cases did with
      | true => exact ⟨c, rfl, .refl c⟩
      | false => exact ⟨refreshLocals env true c, rfl, refreshLocals_locals env true c⟩
    obtain ⟨c1, e1, l1⟩ := e1
    rw [e1]
    obtain ⟨b, c2, e2, l2, _⟩ := isLocal_ok env src c1 l
    rw [M.bind_ok e2]
    have hl2 := l1.trans l2
    cases b with
    | true => exact ⟨true, c2, l, rfl, hl2.cinv h.cinv, hl2.rinv h.rinv⟩
    | false =>
      have hx2 : c2.recs r = some x := by rw [hl2.recs]; exact hx
      obtain ⟨c', e, hi⟩ := restA_ok (env := env) (src := src) hs ha (done_inv h hl2 hx2)
      refine ⟨true, c', _, ?_, hi⟩
      rw [if_neg (by simp), M.bind_ok (conflict_ok (hl2.rinv h.rinv) hx2 hu)]
      exact (M.bind_ok e).trans rfl
  have hn : ∃ did' c' l', ansK env src (inAnswerA.rest env src a s) did none ⟨c, l⟩ = .ok (did', ⟨c', l'⟩) ∧ DInv c' l' := by
    obtain ⟨c', e, hi⟩ := restA_ok (env := env) (src := src) hs ha h
    exact ⟨did, c', l, (M.bind_ok e).trans rfl, hi⟩
  rw [inAnswerA_eq]
  unfold ansW
  rw [M.bind_ok (rFirst_ok h.rinv _ _)]
  cases hm : (c.matching a.name a.type).head? with
  | none => exact hn
  | some r =>
    have : r ∈ c.matching a.name a.type := List.mem_of_head? hm
    obtain ⟨x, hx, _⟩ := isRec_name (List.mem_filter.mp this).2
    dsimp only
    rw [M.bind_ok (getRec_ok hx)]
    by_cases hu : x.unique ≠ 0 ∧ x.modified = true ∧ aMatch a x.rr = true
    · rw [if_pos hu]
      exact hk r x hx hu.1
    · rw [if_neg hu]
      exact hn

theorem inAnswersA_ok {env : Env} {src : Addr} {mem : Nat → Store} (hm : ∀ k, mem k ≠ .nameless) :
    ∀ (as : List Resource) (k : Nat) (did : Bool) {c : Core} {l : Lists}, (∀ a ∈ as, a.WF) → DInv c l →
      ∃ c' l', inAnswersA env src mem k as did ⟨c, l⟩ = .ok ((), ⟨c', l'⟩) ∧ DInv c' l'
  | [], _, _, c, l, _, h => ⟨c, l, rfl, h⟩
  | a :: as, k, did, c, l, ha, h => by
    obtain ⟨did', c1, l1, e1, h1⟩ := inAnswerA_ok (env := env) (src := src) (hm k) (ha a (by simp)) (did := did) h
    obtain ⟨c', l', e, h2⟩ := inAnswersA_ok hm as (k + 1) did' (fun a m => ha a (by simp [m])) h1
    refine ⟨c', l', ?_, h2⟩
    unfold inAnswersA
    rw [M.bind_ok e1]
    exact e

theorem inMsgA_ok {env : Env} {now : TV} {m : Msg} {src : Addr} {mem : Nat → Store} (hm : ∀ k, mem k ≠ .nameless)
    (hw : ∀ a ∈ m.an, a.WF) {c : Core} {l : Lists} (h : DInv c l) :
    ∃ ret c' l', inMsgA env now m src mem ⟨c, l⟩ = .ok (ret, ⟨c', l'⟩) ∧ DInv c' l' := by
  unfold inMsgA
  rw [M.bind_ok core_ok]
  cases hs : c.shutdown with
  | true => exact ⟨1, c, l, rfl, h⟩
  | false =>
    rw [if_neg (by simp), M.bind_ok modC_ok]
    have h0 := h.atNow now
    obtain ⟨b, c1, e1, hl, _⟩ := isLocal_ok env src { c with now := now } l
    have h1 : DInv c1 l := ⟨hl.cinv h0.cinv, hl.rinv h0.rinv⟩
    rw [M.bind_ok e1]
    cases b with
    | true => exact ⟨0, c1, l, rfl, h1⟩
    | false =>
      cases hq : m.header.qr with
      | false =>
        obtain ⟨c', l', e, n⟩ := inQuestions_ok (env := env) (m := m) (src := src) m.qd false h1
        exact ⟨0, c', l', (M.bind_ok e).trans rfl, n.inv h1⟩
      | true =>
        obtain ⟨c', l', e, n⟩ := inAnswersA_ok (env := env) (src := src) hm m.an 0 false hw h1
        exact ⟨0, c', l', (M.bind_ok e).trans rfl, n⟩

theorem stepFail_ok {env : Env} {c : Core} {l : Lists} (h : DInv c l) (f : Fail) (hs : FailSafe c f) :
    ∃ c' l', stepFail env f ⟨c, l⟩ = .ok ((), ⟨c', l'⟩) ∧ DInv c' l' := by
  cases f with
  | query host type cb =>
    obtain ⟨o, e, _⟩ := h.cinv.qFind host type
    cases o with
    | none =>
      refine ⟨c, l, ?_, h⟩
      unfold stepFail
      refine liftC_ok ?_
      simp only [e]
    | some q =>
      obtain ⟨c', e', n⟩ := h.cinv.query_ok host type (some cb)
      refine ⟨c', l, ?_, n.inv, h.rinv.rest n.rest⟩
      unfold stepFail
      refine liftC_ok ?_
      simp only [e, e']
      rfl
  | shared host type ttl => exact ⟨c, l, rfl, h⟩
  | unique host type ttl => exact ⟨c, l, rfl, h⟩
  | recv now m src mem =>
    obtain ⟨ret, c', l', e, h'⟩ := inMsgA_ok (env := env) (now := now) (src := src) hs.2 hs.1 h
    exact ⟨c', l', (M.bind_ok e).trans rfl, h'⟩
  | setHost r =>
    obtain ⟨x, hx⟩ := Option.isSome_iff_exists.mp hs
    exact ⟨_, _, set_ok h.rinv hx (fun x => { x with rr := { x.rr with rdname := none } }) ⟨rfl, rfl, rfl, rfl, rfl, rfl⟩,
      setSt_inv h hx ⟨rfl, rfl, rfl, rfl, rfl, rfl⟩⟩

namespace Sim

theorem inAnswerA (env : Env) (src : Addr) (a : Resource) (s : Store) (did : Bool) :
    Sim (Mdns.inAnswerA env src a s did) (Mdns.inAnswerA env src a s did) := by
  have hr : Sim (inAnswerA.rest env src a s) (inAnswerA.rest env src a s) := by
    unfold inAnswerA.rest
    sim
  have hk : ∀ bad, Sim (ansK env src (inAnswerA.rest env src a s) did bad) (ansK env src (inAnswerA.rest env src a s) did bad) := by
    intro bad
    cases bad with
    | none => exact bind hr fun _ => pure _
    | some r =>
      unfold ansK
      sim
  rw [inAnswerA_eq, inAnswerA_eq]
  unfold ansW
  refine bind (rFirst _ _) fun r => ?_
  cases r with
  | none => exact bind (pure _) hk
  | some r => exact bind (getRec _) fun _ => bind (pure _) hk
macro_rules | `(tactic| sim1) => `(tactic| with_reducible apply Sim.inAnswerA)

theorem inAnswersA (env : Env) (src : Addr) (mem : Nat → Store) : ∀ as k did,
    Sim (Mdns.inAnswersA env src mem k as did) (Mdns.inAnswersA env src mem k as did)
  | [], _, _ => pure _
  | a :: as, k, did => by
    unfold Mdns.inAnswersA
    exact bind (inAnswerA _ _ _ _ _) fun did => inAnswersA env src mem as (k + 1) did
macro_rules | `(tactic| sim1) => `(tactic| with_reducible apply Sim.inAnswersA)

theorem inMsgA (env : Env) (now : TV) (m : Msg) (src : Addr) (mem : Nat → Store) :
    Sim (Mdns.inMsgA env now m src mem) (Mdns.inMsgA env now m src mem) := by
  unfold Mdns.inMsgA
  sim
macro_rules | `(tactic| sim1) => `(tactic| with_reducible apply Sim.inMsgA)

theorem stepFail (env : Env) (f : Fail) : Sim (Mdns.stepFail env f) (Mdns.stepFail env f) := by
  cases f <;> unfold Mdns.stepFail <;> dsimp only <;> sim

end Sim

/-- The states that calls lead to, some of them with too little memory. -/
inductive ReachF (env : Env) : D Ptrs → Prop
  | new (cls frame : Nat) (now : TV) : ReachF env (newD cls frame now)
  | step {d d' : D Ptrs} {o : Op} {a : OpOut} (h : ReachF env d) (hs : OpSafe env d.c d.q.walk o)
      (e : Mdns.step env o d = .ok (a, d')) : ReachF env d'
  | fail {d d' : D Ptrs} {f : Fail} (h : ReachF env d) (hs : FailSafe d.c f)
      (e : Mdns.stepFail env f d = .ok ((), d')) : ReachF env d'

theorem Rep.fail {env : Env} {d : D Ptrs} {l : Lists} (h : Rep d l) (f : Fail) (hs : FailSafe d.c f) :
    ∃ d' l', Mdns.stepFail env f d = .ok ((), d') ∧ Rep d' l' := by
  obtain ⟨c', l', e, n⟩ := stepFail_ok (env := env) h.inv f hs
  obtain ⟨p', e', hr⟩ := Sim.stepFail env f d.q l d.c h.rq () c' l' e
  exact ⟨⟨c', p'⟩, l', e', hr, n⟩

theorem ReachF.rep {env : Env} {d : D Ptrs} (h : ReachF env d) : ∃ l, Rep d l := by
  induction h with
  | new cls frame now => exact ⟨_, newD_rep cls frame now⟩
  | step _ hs e ih =>
    obtain ⟨l, hr⟩ := ih
    obtain ⟨a', d'', l', e', _, hr'⟩ := hr.step _ hs
    rw [e] at e'
    cases e'
    exact ⟨l', hr'⟩
  | fail _ hs e ih =>
    obtain ⟨l, hr⟩ := ih
    obtain ⟨d'', l', e', hr'⟩ := hr.fail (env := env) _ hs
    rw [e] at e'
    cases e'
    exact ⟨l', hr'⟩

/-- However many allocations failed before, no call is undefined or hangs, whether its allocations succeed or not; if the `strdup` of names in
received data succeeds. -/
theorem C96_sound_partial {env : Env} {d : D Ptrs} (h : ReachF env d) :
    (∀ o, OpSafe env d.c d.q.walk o → ∃ a d', Mdns.step env o d = .ok (a, d')) ∧
      ∀ f, FailSafe d.c f → ∃ d', Mdns.stepFail env f d = .ok ((), d') := by
  obtain ⟨l, hr⟩ := h.rep
  refine ⟨fun o hs => ?_, fun f hs => ?_⟩
  · obtain ⟨a, d', _, e, _⟩ := hr.step o hs
    exact ⟨a, d', e⟩
  · obtain ⟨d', _, e, _⟩ := hr.fail (env := env) f hs
    exact ⟨d', e⟩

/-- A failing call whose effects are those of calls with enough memory: without a receive callback, and not `mdnsd_set_host`. -/
def Fail.plain (c : Core) : Fail → Prop
  | .recv _ _ _ _ => c.recvCb = false
  | .setHost _ => False
  | _ => True

/-- A failing call does nothing, or what one with enough memory does. -/
theorem C96_effect_partial {env : Env} {d d' : D Ptrs} {f : Fail} (hs : FailSafe d.c f) (hp : f.plain d.c)
    (e : Mdns.stepFail env f d = .ok ((), d')) :
    d' = d ∨ ∃ o a, OpSafe env d.c d.q.walk o ∧ Mdns.step env o d = .ok (a, d') := by
  cases f with
  | query host type cb =>
    unfold stepFail at e
    cases hq : d.c.qFind host type with
    | ub => unfold M.liftC at e; simp only [hq] at e; cases e
    | hang => unfold M.liftC at e; simp only [hq] at e; cases e
    | ok o =>
      cases o with
      | none =>
        unfold M.liftC at e
        simp only [hq] at e
        cases e
        exact .inl rfl
      | some q =>
        refine .inr ⟨.query host type (some cb), .unit, trivial, ?_⟩
        unfold M.liftC at e
        simp only [hq] at e
        refine (M.bind_ok (a := ()) (d' := d') ?_).trans rfl
        unfold M.liftC
        exact e
  | shared host type ttl => cases e; exact .inl rfl
  | unique host type ttl => cases e; exact .inl rfl
  | recv now m src mem =>
    obtain ⟨an, hu, e2⟩ := C96_packet_partial env now m src hs.2 d hp
    refine .inr ⟨.recv now { m with an := an } src, .unit, hu.wf hs.1, ?_⟩
    cases hx : inMsgA env now m src mem d with
    | ub => rw [show stepFail env (.recv now m src mem) d = .ub from M.bind_ub hx] at e; cases e
    | hang => rw [show stepFail env (.recv now m src mem) d = .hang from M.bind_hang hx] at e; cases e
    | ok ad =>
      obtain ⟨ret, d1⟩ := ad
      rw [show stepFail env (.recv now m src mem) d = .ok ((), d1) from (M.bind_ok hx).trans rfl] at e
      cases e
      exact (M.bind_ok (e2.symm.trans hx)).trans rfl
  | setHost r => exact absurd hp id

/-- The states that calls lead to, some with too little memory, as in `C96_effect_partial`. -/
inductive ReachP (env : Env) : D Ptrs → Prop
  | new (cls frame : Nat) (now : TV) : ReachP env (newD cls frame now)
  | step {d d' : D Ptrs} {o : Op} {a : OpOut} (h : ReachP env d) (hs : OpSafe env d.c d.q.walk o)
      (e : Mdns.step env o d = .ok (a, d')) : ReachP env d'
  | fail {d d' : D Ptrs} {f : Fail} (h : ReachP env d) (hs : FailSafe d.c f) (hp : f.plain d.c)
      (e : Mdns.stepFail env f d = .ok ((), d')) : ReachP env d'

/-- Such histories lead to no states that histories with enough memory do not lead to: everything proved about those holds. -/
theorem C96_states_partial {env : Env} {d : D Ptrs} (h : ReachP env d) : Reach env d := by
  induction h with
  | new cls frame now => exact .new cls frame now
  | step _ hs e ih => exact .step ih hs e
  | fail _ hs hp e ih =>
    rcases C96_effect_partial hs hp e with rfl | ⟨o, a, hs', e'⟩
    · exact ih
    · exact .step ih hs' e'

end Mdns
