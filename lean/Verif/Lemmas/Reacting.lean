import Verif.Model.Reacting
import Verif.Lemmas.Hosts
import Verif.Lemmas.Safety
import Verif.Props.Lasting

/-!
# Conflict callbacks that call the library: what their calls do

The loop over the records that may answer a question goes on with a record it fetched before the callback was called.
Calls that withdraw no record of the same name that is still being probed leave the rest of the chain as it was.
-/

namespace Mdns

open M

/-- An event that is no call of a conflict callback. -/
def Event.Calm (e : Event) : Prop := ∀ r n t, e ≠ .conflict r n t

/-- The log goes on without calls of conflict callbacks. -/
def CalmLog (a b : List Event) : Prop := ∃ evs, b = a ++ evs ∧ ∀ e ∈ evs, e.Calm

theorem CalmLog.refl (a : List Event) : CalmLog a a := ⟨[], by simp, fun _ m => by cases m⟩

theorem CalmLog.of_eq {a b : List Event} (h : b = a) : CalmLog a b := h ▸ .refl a

theorem CalmLog.trans {a b c : List Event} (h : CalmLog a b) (h' : CalmLog b c) : CalmLog a c := by
  obtain ⟨e1, rfl, h1⟩ := h
  obtain ⟨e2, rfl, h2⟩ := h'
  refine ⟨e1 ++ e2, by simp, fun e m => ?_⟩
  rcases List.mem_append.mp m with m | m
  · exact h1 e m
  · exact h2 e m

/-- The calls that a conflict callback for a name may make: `mdnsd_set_address_family`, `mdnsd_register_receive_callback`, `mdnsd_query`,
`mdnsd_shared`, `mdnsd_unique` with a callback, the functions that set the data of a record, and `mdnsd_done` for a record that exists, unless the
record is of that name and still being probed. -/
def Op.considerate (name : Bytes) (c : Core) : Op → Prop
  | .setFamily _ => True
  | .receiveCallback _ => True
  | .query _ _ _ => True
  | .shared _ _ _ => True
  | .unique _ _ _ cf => cf.isSome
  | .done r => ∃ x, c.recs r = some x ∧ (x.rr.name = name → ¬ (x.unique ≠ 0 ∧ x.unique < 5))
  | .setRaw r _ => (c.recs r).isSome
  | .setHost r _ => (c.recs r).isSome
  | .setIp r _ => (c.recs r).isSome
  | .setIpv6 r _ => (c.recs r).isSome
  | .setSrv r _ _ _ _ => (c.recs r).isSome
  | _ => False

/-- Conflict callbacks that make such calls only. -/
def Reaction.Considerate (p : Reaction) : Prop :=
  ∀ name type c, ∀ f ∈ p name type c, ∀ c' l', DInv c' l' → (f c').considerate name c'

theorem Op.considerate.safe {name : Bytes} {c : Core} {o : Op} (h : o.considerate name c) (env : Env) (q : W → List Nat) :
    OpSafe env c q o := by
  cases o <;> first | exact h.elim | exact h | trivial | skip
  obtain ⟨x, hx, _⟩ := h
  show (c.recs _).isSome = true
  rw [hx]
  rfl

/-- What a call does to the records. -/
inductive Deed (c : Core) (l : Lists) (c' : Core) (l' : Lists) : Op → Prop
  | same {o : Op} (h1 : c'.recs = c.recs) (h2 : c'.published = c.published) (h3 : l'.size = l.size) : Deed c l c' l' o
  | set {o : Op} {r : Nat} {x x' : Rec} (hx : c.recs r = some x) (h1 : c'.recs = upd c.recs r (some x'))
      (h2 : c'.published = c.published) (h3 : l'.size = l.size) (hn : x'.rr.name = x.rr.name) (ht : x'.rr.type = x.rr.type)
      (hl : x'.rr.ttl = x.rr.ttl) (hu : x'.unique = x.unique) (hf : x'.conflict = x.conflict) : Deed c l c' l' o
  | fresh {o : Op} {x : Rec} (h1 : c'.recs = upd c.recs l.size (some x))
      (h2 : c'.published = upd c.published (bucket x.rr.name sprime) (l.size :: c.published (bucket x.rr.name sprime)))
      (h3 : l'.size = l.size + 1) : Deed c l c' l' o
  | bye {r : Nat} {x : Rec} (hx : c.recs r = some x) (hp : ¬ (x.unique ≠ 0 ∧ x.unique < 5))
      (h1 : c'.recs = upd c.recs r (some { x with rr := { x.rr with ttl := 0 } })) (h2 : c'.published = c.published)
      (h3 : l'.size = l.size) : Deed c l c' l' (.done r)
  | drop {r : Nat} {x : Rec} (hx : c.recs r = some x) (hp : x.unique ≠ 0 ∧ x.unique < 5) (h1 : c'.recs = upd c.recs r none)
      (h2 : c'.published = upd c.published (bucket x.rr.name sprime) ((c.published (bucket x.rr.name sprime)).erase r))
      (h3 : l'.size = l.size) : Deed c l c' l' (.done r)

theorem sendSt_size (c : Core) (l : Lists) (r : Nat) (x : Rec) : (sendSt c l r x).q.size = l.size := by
  unfold sendSt
  split
  · rfl
  · split <;> rfl

theorem doneSt_deed {c : Core} {l : Lists} {r : Nat} {x : Rec} (hx : c.recs r = some x) :
    Deed c l (doneSt c l r x).c (doneSt c l r x).q (.done r) := by
  unfold doneSt
  split
  · rename_i hp
    exact .drop hx hp rfl rfl rfl
  · rename_i hp
    exact .bye hx hp (sendSt_recs ..) (sendSt_published ..) (sendSt_size ..)

theorem setSt_deed {c : Core} {l : Lists} {r : Nat} {x x' : Rec} (hx : c.recs r = some x) (hr : SameRole x x') (hl : x'.rr.ttl = x.rr.ttl)
    (o : Op) : Deed c l (setSt c l r x').c (setSt c l r x').q o := by
  unfold setSt publishSt
  split
  · exact .set hx (upd_upd ..) rfl rfl hr.name hr.type hl hr.unique hr.conflict
  · exact .set hx (upd_upd ..) rfl rfl hr.name hr.type hl hr.unique hr.conflict

theorem setSt_log (c : Core) (l : Lists) (r : Nat) (x : Rec) : (setSt c l r x).c.log = c.log :=
  (congrArg Core.log (setSt_recfree c l r x) : _)

theorem doneSt_log (c : Core) (l : Lists) (r : Nat) (x : Rec) : (doneSt c l r x).c.log = c.log :=
  (congrArg Core.log (doneSt_recfree c l r x) : _)

theorem query_calm {c c' : Core} (h : CInv c) {host : Bytes} {type : Nat} {a : Option Nat} (e : c.query host type a = .ok c') :
    CalmLog c.log c'.log := by
  cases a with
  | none =>
    obtain ⟨c2, e2, _, hl, _⟩ := h.queryOff host type
    rw [e] at e2
    cases e2
    rcases hl with hl | rfl
    · exact ⟨_, hl, fun e m r n t he => by simp at m; subst m; cases he⟩
    · exact .refl _
  | some cb =>
    obtain ⟨c2, e2, _, hl⟩ := h.queryOn host type cb
    rw [e] at e2
    cases e2
    exact ⟨_, hl, fun e m r n t he => by simp at m; subst m; cases he⟩

/-- The calls of a callback change one record at most, and call no conflict callback. -/
theorem Did.deed {env : Env} {o : Op} {a : OpOut} {c c' : Core} {l l' : Lists} (n : Did env o c l a c' l') (i : DInv c l) {name : Bytes}
    (h : o.considerate name c) : Deed c l c' l' o ∧ CalmLog c.log c'.log := by
  cases n with
  | setFamily => exact ⟨.same rfl rfl rfl, .refl _⟩
  | receiveCallback => exact ⟨.same rfl rfl rfl, .refl _⟩
  | query e n =>
    exact ⟨.same (congrArg Core.recs n.rest : c'.rest.recs = c.rest.recs) (congrArg Core.published n.rest : c'.rest.published = c.rest.published) rfl,
      query_calm i.cinv e⟩
  | shared => exact ⟨.fresh (x := sharedRec _ _ _) rfl rfl rfl, .refl _⟩
  | unique => exact ⟨.fresh (x := uniqueRec _ _ _ _) rfl rfl rfl, .refl _⟩
  | done hx => exact ⟨doneSt_deed hx, .of_eq (doneSt_log ..)⟩
  | setRaw hx => exact ⟨setSt_deed hx (by constructor <;> rfl) (by rfl) _, .of_eq (setSt_log ..)⟩
  | setHost hx => exact ⟨setSt_deed hx (by constructor <;> rfl) (by rfl) _, .of_eq (setSt_log ..)⟩
  | setIp hx => exact ⟨setSt_deed hx (by constructor <;> rfl) (by rfl) _, .of_eq (setSt_log ..)⟩
  | setIpv6 hx => exact ⟨setSt_deed hx (by constructor <;> rfl) (by rfl) _, .of_eq (setSt_log ..)⟩
  | setSrv hx => exact ⟨setSt_deed hx (by constructor <;> rfl) (by rfl) _, .of_eq (setSt_log ..)⟩
  | setAddress _ => exact h.elim
  | setIpv6Address _ => exact h.elim
  | shutdown _ _ => exact h.elim
  | recv _ _ => exact h.elim
  | send _ => exact h.elim
  | sleep _ => exact h.elim
  | setAddresses _ => exact h.elim
  | setIpv6Addresses _ => exact h.elim
  | setInterface _ => exact h.elim
  | clear _ _ _ _ _ => exact h.elim
  | stepEnd => exact h.elim

/-- The records of a name are still there, and whoever is at one of them still finds the same ones behind it. -/
structure Bides (name : Bytes) (c c' : Core) : Prop where
  recs : ∀ r x, c.recs r = some x → x.rr.name = name → ∃ x', c'.recs r = some x' ∧ x'.rr.name = name
  chain : ∀ pre suf, c.published (bucket name sprime) = pre ++ suf →
    ∃ pre' suf', c'.published (bucket name sprime) = pre' ++ suf' ∧
      ∀ type, suf'.filter (c'.isRec name type) = suf.filter (c.isRec name type)

theorem Bides.refl (name : Bytes) (c : Core) : Bides name c c :=
  ⟨fun _ x h hn => ⟨x, h, hn⟩, fun pre suf h => ⟨pre, suf, h, fun _ => rfl⟩⟩

theorem Bides.trans {name : Bytes} {a b c : Core} (h : Bides name a b) (h' : Bides name b c) : Bides name a c := by
  refine ⟨fun r x hx hn => ?_, fun pre suf hp => ?_⟩
  · obtain ⟨y, hy, hm⟩ := h.recs r x hx hn
    exact h'.recs r y hy hm
  · obtain ⟨pre1, suf1, hp1, hf1⟩ := h.chain pre suf hp
    obtain ⟨pre2, suf2, hp2, hf2⟩ := h'.chain pre1 suf1 hp1
    exact ⟨pre2, suf2, hp2, fun t => (hf2 t).trans (hf1 t)⟩

theorem isRec_upd {c c' : Core} {r : Nat} {o : Option Rec} (h : c'.recs = upd c.recs r o) {s : Nat} (hs : s ≠ r) (name : Bytes) (type : Nat) :
    c'.isRec name type s = c.isRec name type s := by
  unfold Core.isRec
  rw [h, upd_other _ _ _ _ hs]

theorem isRec_set {c c' : Core} {r : Nat} {x x' : Rec} (hx : c.recs r = some x) (h : c'.recs = upd c.recs r (some x'))
    (hn : x'.rr.name = x.rr.name) (ht : x'.rr.type = x.rr.type) : c'.isRec = c.isRec := by
  funext name type s
  by_cases e : s = r
  · subst e
    unfold Core.isRec
    rw [h, upd_same, hx]
    simp only [Answer.is, hn, ht]
  · exact isRec_upd h e name type

/-- Taking out a record that does not match. -/
theorem filter_erase {p p' : Nat → Bool} {s : Nat} {l : List Nat} (nd : l.Nodup) (h : p s = false) (h' : ∀ a, a ≠ s → p' a = p a) :
    (l.erase s).filter p' = l.filter p := by
  rw [nd.erase_eq_filter, List.filter_filter]
  refine List.filter_congr fun a _ => ?_
  by_cases e : a = s
  · subst e
    simp [h]
  · simp [h' a e, e]

theorem Bides.set {name : Bytes} {c c' : Core} {r : Nat} {x x' : Rec} (hx : c.recs r = some x) (h1 : c'.recs = upd c.recs r (some x'))
    (h2 : c'.published = c.published) (hn : x'.rr.name = x.rr.name) (ht : x'.rr.type = x.rr.type) : Bides name c c' := by
  refine ⟨fun s y hy hm => ?_, fun pre suf hp => ⟨pre, suf, by rw [h2]; exact hp, fun t => by rw [isRec_set hx h1 hn ht]⟩⟩
  by_cases e : s = r
  · subst e
    rw [hx] at hy
    cases hy
    exact ⟨x', by rw [h1, upd_same], hn.trans hm⟩
  · exact ⟨y, by rw [h1, upd_other _ _ _ _ e]; exact hy, hm⟩

theorem Deed.held {c c' : Core} {l l' : Lists} {o : Op} (h : Deed c l c' l' o) (i : RInv c l) {name : Bytes} (hc : o.considerate name c) :
    Bides name c c' := by
  cases h with
  | same h1 h2 _ =>
    exact ⟨fun r x hx hn => ⟨x, by rw [h1]; exact hx, hn⟩, fun pre suf hp => ⟨pre, suf, by rw [h2]; exact hp, fun t => by
      rw [isRec_congr h1]⟩⟩
  | set hx h1 h2 _ hn ht _ _ _ => exact .set hx h1 h2 hn ht
  | bye hx _ h1 h2 _ => exact .set hx h1 h2 rfl rfl
  | @fresh o x h1 h2 _ =>
    have hn := i.absent.1
    refine ⟨fun s y hy hm => ?_, fun pre suf hp => ?_⟩
    · have e : s ≠ l.size := fun e => by subst e; rw [hn] at hy; cases hy
      exact ⟨y, by rw [h1, upd_other _ _ _ _ e]; exact hy, hm⟩
    · have hf : ∀ t, suf.filter (c'.isRec name t) = suf.filter (c.isRec name t) := by
        intro t
        refine List.filter_congr fun a ma => isRec_upd h1 ?_ name t
        intro e
        subst e
        obtain ⟨y, hy, _⟩ := i.pub (bucket name sprime) l.size (by rw [hp]; simp [ma])
        rw [hn] at hy
        cases hy
      by_cases e : bucket name sprime = bucket x.rr.name sprime
      · exact ⟨l.size :: pre, suf, by rw [h2, e, upd_same, ← e, hp]; rfl, hf⟩
      · exact ⟨pre, suf, by rw [h2, upd_other _ _ _ _ e]; exact hp, hf⟩
  | @drop r x hx hpr h1 h2 _ =>
    obtain ⟨y, hy, hne⟩ := hc
    rw [hx] at hy
    cases hy
    have hne : x.rr.name ≠ name := fun e => hne e hpr
    have hf0 : ∀ t, c.isRec name t r = false := by
      intro t
      cases hr : c.isRec name t r with
      | false => rfl
      | true =>
        obtain ⟨y, hy, hm, _⟩ := isRec_name hr
        rw [hx] at hy
        cases hy
        exact absurd hm hne
    refine ⟨fun s y hy hm => ?_, fun pre suf hp => ?_⟩
    · have e : s ≠ r := fun e => by subst e; rw [hx] at hy; cases hy; exact hne hm
      exact ⟨y, by rw [h1, upd_other _ _ _ _ e]; exact hy, hm⟩
    · by_cases e : bucket name sprime = bucket x.rr.name sprime
      · have nd := i.pnodup (bucket name sprime)
        rw [hp] at nd
        have nds : suf.Nodup := (List.nodup_append.mp nd).2.1
        have hpub : c'.published (bucket name sprime) = (pre ++ suf).erase r := by rw [h2, e, upd_same, ← e, hp]
        by_cases m : r ∈ pre
        · refine ⟨pre.erase r, suf, by rw [hpub, List.erase_append_left _ m], fun t => ?_⟩
          refine List.filter_congr fun a ma => isRec_upd h1 ?_ name t
          intro e
          subst e
          exact (List.nodup_append.mp nd).2.2 a m a ma rfl
        · refine ⟨pre, suf.erase r, by rw [hpub, List.erase_append_right _ m], fun t => ?_⟩
          exact filter_erase nds (hf0 t) fun a ha => isRec_upd h1 ha name t
      · refine ⟨pre, suf, by rw [h2, upd_other _ _ _ _ e]; exact hp, fun t => ?_⟩
        refine List.filter_congr fun a ma => ?_
        by_cases ea : a = r
        · subst ea
          rw [hf0 t]
          unfold Core.isRec
          rw [h1, upd_same]
        · exact isRec_upd h1 ea name t

/-- The calls of a callback, one after the other. -/
inductive Reacts (env : Env) (name : Bytes) : List (Core → Op) → Core → Lists → Core → Lists → Prop
  | nil {c : Core} {l : Lists} : Reacts env name [] c l c l
  | cons {f : Core → Op} {fs : List (Core → Op)} {a : OpOut} {c c1 c' : Core} {l l1 l' : Lists} (i : DInv c l)
      (hc : (f c).considerate name c) (n : Did env (f c) c l a c1 l1) (r : Reacts env name fs c1 l1 c' l') :
      Reacts env name (f :: fs) c l c' l'

theorem Reacts.inv {env : Env} {name : Bytes} {fs : List (Core → Op)} {c c' : Core} {l l' : Lists} (n : Reacts env name fs c l c' l')
    (i : DInv c l) : DInv c' l' := by
  induction n with
  | nil => exact i
  | cons _ _ n _ ih => exact ih (n.inv i)

theorem Reacts.held {env : Env} {name : Bytes} {fs : List (Core → Op)} {c c' : Core} {l l' : Lists} (n : Reacts env name fs c l c' l') :
    Bides name c c' := by
  induction n with
  | nil => exact .refl _ _
  | cons i hc n _ ih => exact ((n.deed i hc).1.held i.rinv hc).trans ih

theorem Reacts.calm {env : Env} {name : Bytes} {fs : List (Core → Op)} {c c' : Core} {l l' : Lists} (n : Reacts env name fs c l c' l') :
    CalmLog c.log c'.log := by
  induction n with
  | nil => exact .refl _
  | cons i hc n _ ih => exact (n.deed i hc).2.trans ih

theorem reactWith_ok {env : Env} {name : Bytes} : ∀ (fs : List (Core → Op)) {c : Core} {l : Lists}, DInv c l →
    (∀ f ∈ fs, ∀ c' l', DInv c' l' → (f c').considerate name c') →
    ∃ c' l', reactWith env fs ⟨c, l⟩ = .ok ((), ⟨c', l'⟩) ∧ Reacts env name fs c l c' l'
  | [], c, l, _, _ => ⟨c, l, rfl, .nil⟩
  | f :: fs, c, l, i, hf => by
    have hc := hf f (by simp) c l i
    obtain ⟨a, c1, l1, e1, n1⟩ := step_ok (env := env) i (f c) (hc.safe env l.q)
    obtain ⟨c', l', e, n⟩ := reactWith_ok (env := env) (name := name) fs (n1.inv i) fun g m => hf g (by simp [m])
    refine ⟨c', l', ?_, .cons i hc n1 n⟩
    unfold reactWith
    rw [M.bind_ok core_ok, M.bind_ok e1]
    exact e

/-- The steps of a received packet: those that leave the records alone and call no conflict callback, and conflicts. -/
inductive Trail (env : Env) (p : Reaction) : Core → Lists → Core → Lists → Prop
  | nil {c : Core} {l : Lists} (i : DInv c l) : Trail env p c l c l
  | quiet {c c1 c' : Core} {l l1 l' : Lists} (i : DInv c l) (h1 : c1.recs = c.recs) (h2 : c1.published = c.published) (h3 : l1.size = l.size)
      (h4 : CalmLog c.log c1.log) (n : Trail env p c1 l1 c' l') : Trail env p c l c' l'
  | conflict {c c1 c' : Core} {l l1 l' : Lists} {r : Nat} {x x1 : Rec} (i : DInv c l) (hx : c.recs r = some x) (hu : x.unique ≠ 0)
      (n1 : Reacts env x.rr.name (p x.rr.name x.rr.type (c.heard [.conflict r x.rr.name x.rr.type]))
        (c.heard [.conflict r x.rr.name x.rr.type]) l c1 l1)
      (i1 : DInv c1 l1) (hx1 : c1.recs r = some x1) (hn : x1.rr.name = x.rr.name)
      (n : Trail env p (doneSt c1 l1 r x1).c (doneSt c1 l1 r x1).q c' l') : Trail env p c l c' l'

theorem Trail.inv {env : Env} {p : Reaction} {c c' : Core} {l l' : Lists} (n : Trail env p c l c' l') : DInv c' l' := by
  induction n with
  | nil i => exact i
  | quiet _ _ _ _ _ _ ih => exact ih
  | conflict _ _ _ _ _ _ _ _ ih => exact ih

theorem Trail.trans {env : Env} {p : Reaction} {c c1 c' : Core} {l l1 l' : Lists} (n : Trail env p c l c1 l1)
    (n' : Trail env p c1 l1 c' l') : Trail env p c l c' l' := by
  induction n with
  | nil i => exact n'
  | quiet i h1 h2 h3 h4 _ ih => exact .quiet i h1 h2 h3 h4 (ih n')
  | conflict i hx hu n1 i1 hx1 hn _ ih => exact .conflict i hx hu n1 i1 hx1 hn (ih n')

theorem Trail.one {env : Env} {p : Reaction} {c c1 : Core} {l l1 : Lists} (i : DInv c l) (i1 : DInv c1 l1) (h1 : c1.recs = c.recs)
    (h2 : c1.published = c.published) (h3 : l1.size = l.size) (h4 : CalmLog c.log c1.log) : Trail env p c l c1 l1 :=
  .quiet i h1 h2 h3 h4 (.nil i1)

theorem Locals.trail {env : Env} {p : Reaction} {c c1 : Core} {l : Lists} (h : Locals env c c1) (i : DInv c l) : Trail env p c l c1 l := by
  refine .one i ⟨h.cinv i.cinv, h.rinv i.rinv⟩ h.recs ?_ rfl (.of_eq ?_)
  · obtain ⟨_, _, _, rfl, _⟩ := h; rfl
  · obtain ⟨_, _, _, rfl, _⟩ := h; rfl

theorem conflictR_ok {env : Env} {p : Reaction} (hp : p.Considerate) {c : Core} {l : Lists} (i : DInv c l) {r : Nat} {x : Rec}
    (hx : c.recs r = some x) (hu : x.unique ≠ 0) :
    ∃ c1 l1 x1, conflictR env p r ⟨c, l⟩ = .ok ((), doneSt c1 l1 r x1) ∧ DInv c1 l1 ∧ Bides x.rr.name c c1 ∧ c1.recs r = some x1 ∧
      x1.rr.name = x.rr.name ∧ Trail env p c l (doneSt c1 l1 r x1).c (doneSt c1 l1 r x1).q := by
  have i0 : DInv (c.heard [.conflict r x.rr.name x.rr.type]) l :=
    ⟨i.cinv.heard1 (e := .conflict _ _ _) trivial, i.rinv.congr rfl rfl rfl⟩
  obtain ⟨c1, l1, e1, n1⟩ := reactWith_ok (env := env) (name := x.rr.name) (p x.rr.name x.rr.type (c.heard [.conflict r x.rr.name x.rr.type])) i0
    fun f m => hp _ _ _ f m
  have i1 := n1.inv i0
  have h1 := n1.held
  obtain ⟨x1, hx1, hn1⟩ := h1.recs r x hx rfl
  refine ⟨c1, l1, x1, ?_, i1, ⟨h1.recs, h1.chain⟩, hx1, hn1, .conflict i hx hu n1 i1 hx1 hn1 (.nil (doneSt_inv i1 hx1))⟩
  unfold conflictR
  rw [M.bind_ok (getRec_ok hx)]
  obtain ⟨cf, hcf⟩ := Option.isSome_iff_exists.mp (i.rinv.conf r x hx hu)
  rw [hcf]
  dsimp only
  rw [M.bind_ok modC_ok, M.bind_ok core_ok]
  exact (M.bind_ok e1).trans (done_ok i1.rinv hx1)

/-- The conflict check of a record being probed. -/
theorem probeConflictR_ok {env : Env} {p : Reaction} (hp : p.Considerate) {src : Addr} {q : Question} {r : Nat} {x : Rec} :
    ∀ (an : List Resource) (did : Bool) {c : Core} {l : Lists}, DInv c l → c.recs r = some x → x.unique ≠ 0 ∧ x.unique < 5 →
      (∃ did' c', probeConflictR env p src q r an did ⟨c, l⟩ = .ok ((did', false), ⟨c', l⟩) ∧ Locals env c c') ∨
        ∃ c1 l1 x1, probeConflictR env p src q r an did ⟨c, l⟩ = .ok ((true, true), doneSt c1 l1 r x1) ∧ DInv c1 l1 ∧ Bides x.rr.name c c1 ∧
          c1.recs r = some x1 ∧ x1.rr.name = x.rr.name ∧ Trail env p c l (doneSt c1 l1 r x1).c (doneSt c1 l1 r x1).q
  | [], did, c, l, _, _, _ => .inl ⟨did, c, rfl, .refl c⟩
  | a :: an, did, c, l, i, hx, hu => by
    unfold probeConflictR
    by_cases ha : answers q a = true
    · rw [if_pos ha, M.bind_ok (getRec_ok hx)]
      by_cases hm : aMatch a x.rr = true
      · rw [if_pos hm]
        exact probeConflictR_ok hp an did i hx hu
      · rw [if_neg hm]
        have e1 : ∃ c1 : Core, (do
            if !did then modC (refreshLocals env true)
            if ← isLocal env src then probeConflictR env p src q r an true
            else do
              conflictR env p r
              pure (true, true) : M Lists (Bool × Bool)) ⟨c, l⟩ = (do
            if ← isLocal env src then probeConflictR env p src q r an true
            else do
              conflictR env p r
              pure (true, true) : M Lists (Bool × Bool)) ⟨c1, l⟩ ∧ Locals env c c1 := by
          cases did with
          | true => exact ⟨c, rfl, .refl c⟩
          | false => exact ⟨refreshLocals env true c, rfl, refreshLocals_locals env true c⟩
        obtain ⟨c1, e1, l1⟩ := e1
        rw [e1]
        obtain ⟨b, c2, e2, l2, _⟩ := isLocal_ok env src c1 l
        rw [M.bind_ok e2]
        have l12 := l1.trans l2
        have hx2 : c2.recs r = some x := by rw [l12.recs]; exact hx
        have i2 : DInv c2 l := ⟨l12.cinv i.cinv, l12.rinv i.rinv⟩
        have hh : ∀ {c3 : Core}, Bides x.rr.name c2 c3 → Bides x.rr.name c c3 := by
          intro c3 h
          refine ⟨fun s y hy => h.recs s y (by rw [l12.recs]; exact hy), fun pre suf hp => ?_⟩
          have hpl : c2.published = c.published := by obtain ⟨_, _, _, rfl, _⟩ := l12; rfl
          obtain ⟨pre', suf', h1, h2⟩ := h.chain pre suf (by rw [hpl]; exact hp)
          exact ⟨pre', suf', h1, fun t => by rw [h2 t, isRec_congr l12.recs]⟩
        cases b with
        | true =>
          rw [if_pos rfl]
          rcases probeConflictR_ok (p := p) hp (src := src) (q := q) an true i2 hx2 hu with ⟨did', c', e, hl⟩ | ⟨c3, l3, x3, e, i3, h3, hx3, hn3, t3⟩
          · exact .inl ⟨did', c', e, l12.trans hl⟩
          · exact .inr ⟨c3, l3, x3, e, i3, hh h3, hx3, hn3, (l12.trail i).trans t3⟩
        | false =>
          rw [if_neg (by simp)]
          obtain ⟨c3, l3, x3, e, i3, h3, hx3, hn3, t3⟩ := conflictR_ok (env := env) hp i2 hx2 hu.1
          exact .inr ⟨c3, l3, x3, (M.bind_ok e).trans rfl, i3, hh h3, hx3, hn3, (l12.trail i).trans t3⟩
    · rw [if_neg ha]
      exact probeConflictR_ok hp an did i hx hu

/-- The rest of the chain is the same after `mdnsd_done` for a record before it. -/
theorem doneSt_behind {c : Core} {l : Lists} (i : RInv c l) {r : Nat} {x : Rec} (hx : c.recs r = some x) {name : Bytes} (hn : x.rr.name = name)
    {type : Nat} {pre suf : List Nat} (hp : c.published (bucket name sprime) = pre ++ r :: suf) :
    ∃ pre', (doneSt c l r x).c.published (bucket name sprime) = pre' ++ suf ∧
      suf.filter ((doneSt c l r x).c.isRec name type) = suf.filter (c.isRec name type) := by
  have nd := i.pnodup (bucket name sprime)
  rw [hp] at nd
  obtain ⟨nd1, nd2⟩ := split_nodup nd
  obtain ⟨pre', h'⟩ := doneSt_published (l := l) (x := x) (by rw [hn]) hp nd1
  refine ⟨pre', h', List.filter_congr fun a ma => ?_⟩
  have ne : a ≠ r := fun e => nd2 (e ▸ ma)
  have he := doneSt_deed (l := l) hx
  generalize doneSt c l r x = d at he ⊢
  cases he with
  | same h1 _ _ => exact congrFun (congrFun (congrFun (isRec_congr h1) _) _) _
  | set hy h1 _ _ hn ht _ _ _ => exact congrFun (congrFun (congrFun (isRec_set hy h1 hn ht) _) _) _
  | @fresh _ y h1 _ _ =>
    refine isRec_upd h1 ?_ _ _
    intro e
    obtain ⟨z, hz, _⟩ := i.pub _ a (by rw [hp]; simp [ma])
    rw [e, i.absent.1] at hz
    cases hz
  | bye _ _ h1 _ _ => exact isRec_upd h1 ne _ _
  | drop _ _ h1 _ _ => exact isRec_upd h1 ne _ _

theorem answerLoopR_ok {env : Env} {p : Reaction} (hcp : p.Considerate) {src : Addr} {q : Question} {an : List Resource} :
    ∀ (rs : List Nat) (fuel : Nat) (s : ISt), DInv s.c s.l →
      (∃ pre suf, s.c.published (bucket q.name sprime) = pre ++ suf ∧ suf.filter (s.c.isRec q.name q.type) = rs) →
      rs.length ≤ fuel →
      ∃ t : ISt, answerLoopR env p src q an fuel rs.head? s.did s.conf ⟨s.c, s.l⟩ = .ok ((t.did, t.conf), ⟨t.c, t.l⟩) ∧
        Trail env p s.c s.l t.c t.l ∧ (s.conf = true → t.conf = true) ∧ (t.conf = false → t.c.recs = s.c.recs)
  | [], fuel, s, i, _, _ => by
    refine ⟨s, ?_, .nil i, id, fun _ => rfl⟩
    unfold answerLoopR
    rfl
  | r :: rs, fuel + 1, s, i, ⟨pre0, suf0, hp0, hs0⟩, hf => by
    have hf : rs.length ≤ fuel := by simpa using hf
    obtain ⟨pre, suf, hp, hr, hs⟩ := mem_suffix_filter hp0 hs0
    obtain ⟨x, hx, hn, ht⟩ := isRec_name hr
    rw [List.head?_cons]
    unfold answerLoopR
    rw [M.bind_ok (getRec_ok hx), M.bind_ok (rNext_ok i.rinv hp hr), hs]
    by_cases hu : x.unique ≠ 0 ∧ x.unique < 5 ∧ ¬ x.modified = true
    · rw [if_pos hu]
      rcases probeConflictR_ok (env := env) hcp (src := src) (q := q) an s.did i hx ⟨hu.1, hu.2.1⟩ with
        ⟨did', c1, e, hl⟩ | ⟨c1, l1, x1, e, i1, h1, hx1, hn1, t1⟩
      · rw [M.bind_ok e]
        have hpl : c1.published = s.c.published := by obtain ⟨_, _, _, rfl, _⟩ := hl; rfl
        obtain ⟨t, e', n, k1, k2⟩ := answerLoopR_ok (env := env) hcp (src := src) (q := q) (an := an) rs fuel
          { s with c := c1, did := did' } ⟨hl.cinv i.cinv, hl.rinv i.rinv⟩
          ⟨pre ++ [r], suf, by rw [hpl]; simp [hp], by rw [isRec_congr hl.recs]; exact hs⟩ hf
        refine ⟨t, ?_, (hl.trail i).trans n, k1, fun h => (k2 h).trans hl.recs⟩
        simp only [Bool.or_false]
        exact e'
      · rw [M.bind_ok e]
        rw [hn] at h1 hn1
        obtain ⟨pre1, suf1, hp1, hf1⟩ := h1.chain pre (r :: suf) hp
        have hs1 : suf1.filter (c1.isRec q.name q.type) = r :: rs := by
          rw [hf1, List.filter_cons, if_pos hr, hs]
        obtain ⟨pre2, suf2, hp2, _, hs2⟩ := mem_suffix_filter hp1 hs1
        obtain ⟨pre3, hp3, hs3⟩ := doneSt_behind (type := q.type) i1.rinv hx1 hn1 hp2
        obtain ⟨t, e', n, k1, k2⟩ := answerLoopR_ok (env := env) hcp (src := src) (q := q) (an := an) rs fuel
          ⟨(doneSt c1 l1 r x1).c, (doneSt c1 l1 r x1).q, true, true⟩ (doneSt_inv i1 hx1) ⟨pre3, suf2, hp3, hs3.trans hs2⟩ hf
        refine ⟨t, ?_, t1.trans n, fun _ => k1 rfl, fun h => ?_⟩
        · simp only [Bool.or_true]
          exact e'
        · rw [k1 rfl] at h
          cases h
    · rw [if_neg hu]
      obtain ⟨evs, he, e⟩ := knownAnswer_ok (q := q) (l := s.l) an hx
      rw [M.bind_ok e]
      have ih : DInv (s.c.heard evs) s.l := ⟨i.cinv.heard (quiet_received he), i.rinv.congr rfl rfl rfl⟩
      have th : Trail env p s.c s.l (s.c.heard evs) s.l := .one i ih rfl rfl rfl ⟨evs, rfl, fun e m => by
        obtain ⟨a, _, rfl⟩ := he e m
        intro _ _ _ h
        cases h⟩
      cases hk : (an.any fun a => answers q a && aMatch a x.rr) with
      | true =>
        obtain ⟨t, e', n, k1, k2⟩ := answerLoopR_ok (env := env) hcp (src := src) (q := q) (an := an) rs fuel
          { s with c := s.c.heard evs } ih ⟨pre ++ [r], suf, by show s.c.published _ = _; rw [hp]; simp, hs⟩ hf
        exact ⟨t, e', th.trans n, k1, k2⟩
      | false =>
        have hx2 : (s.c.heard evs).recs r = some x := hx
        have e2 := rSend_ok ih.rinv hx2
        have i2 : DInv (sendSt (s.c.heard evs) s.l r x).c (sendSt (s.c.heard evs) s.l r x).q :=
          ⟨ih.cinv.recfree (sendSt_recfree _ _ _ _), ih.rinv.sendSt hx2⟩
        have ts : Trail env p (s.c.heard evs) s.l (sendSt (s.c.heard evs) s.l r x).c (sendSt (s.c.heard evs) s.l r x).q :=
          .one ih i2 (sendSt_recs ..) (sendSt_published ..) (sendSt_size ..) (.of_eq (sendSt_log ..))
        obtain ⟨t, e', n, k1, k2⟩ := answerLoopR_ok (env := env) hcp (src := src) (q := q) (an := an) rs fuel
          { s with c := (sendSt (s.c.heard evs) s.l r x).c, l := (sendSt (s.c.heard evs) s.l r x).q } i2
          ⟨pre ++ [r], suf, by rw [sendSt_published]; show s.c.published _ = _; rw [hp]; simp,
            by rw [isRec_congr (sendSt_recs _ _ _ _)]; exact hs⟩ hf
        exact ⟨t, (M.bind_ok e2).trans e', th.trans (ts.trans n), k1, fun h => (k2 h).trans (sendSt_recs ..)⟩

theorem SendL.trail {env : Env} {p : Reaction} {rs : List Nat} {c c' : Core} {l l' : Lists} (n : SendL rs c l c' l') (i : CInv c) :
    Trail env p c l c' l' := by
  induction n with
  | done h => exact .nil ⟨i, h⟩
  | send h hx _ ih =>
    exact .quiet ⟨i, h⟩ (sendSt_recs ..) (sendSt_published ..) (sendSt_size ..) (.of_eq (sendSt_log ..)) (ih (i.recfree (sendSt_recfree _ _ _ _)))

theorem inQuestionR_ok {env : Env} {p : Reaction} (hcp : p.Considerate) {m : Msg} {src : Addr} {q : Question} {did : Bool} {c : Core} {l : Lists}
    (h : DInv c l) : ∃ did' c' l', inQuestionR env p m src q did ⟨c, l⟩ = .ok (did', ⟨c', l'⟩) ∧ Trail env p c l c' l' := by
  unfold inQuestionR
  rw [M.bind_ok core_ok]
  by_cases hc : q.cls = c.cls
  · rw [if_neg (fun e => e hc), M.bind_ok (rFirst_ok h.rinv _ _)]
    cases hm : c.matching q.name q.type with
    | nil => exact ⟨did, c, l, rfl, .nil h⟩
    | cons r rs =>
      have hlen := matching_le h.rinv q.name q.type
      rw [hm] at hlen
      simp only [List.head?_cons]
      rw [M.bind_ok qFuel_ok]
      by_cases hq : q.name = discoName
      · rw [if_pos hq, M.bind_ok modC_ok]
        have hd : DInv { c with disco := true } l := ⟨h.cinv.congr rfl rfl rfl rfl rfl rfl, h.rinv.congr rfl rfl rfl⟩
        obtain ⟨c', l', e, n⟩ := discoLoop_ok hq (r :: rs) l.size { c with disco := true } l hd.rinv ⟨[], _, rfl, hm⟩ hlen
        refine ⟨did, c', l', ?_, (Trail.one h hd rfl rfl rfl (.refl _)).trans (n.trail hd.cinv)⟩
        rw [List.head?_cons] at e
        rw [M.bind_ok e]
        rfl
      · rw [if_neg hq]
        obtain ⟨t, e, n, _, k2⟩ := answerLoopR_ok (env := env) hcp (src := src) (q := q) (an := m.an) (r :: rs) l.size
          ⟨c, l, did, false⟩ h ⟨[], _, rfl, hm⟩ hlen
        rw [List.head?_cons] at e
        rw [M.bind_ok e]
        by_cases hp : t.conf = false ∧ src.port ≠ 5353
        · refine ⟨t.did, { t.c with uanswers := ⟨m.id, src, r⟩ :: t.c.uanswers }, t.l, ?_, n.trans (.one n.inv ?_ rfl rfl rfl (.refl _))⟩
          · rw [if_pos (show ¬ t.conf = true ∧ src.port ≠ 5353 from ⟨by simp [hp.1], hp.2⟩)]
            rfl
          · have i := n.inv
            refine ⟨i.cinv.congr rfl rfl rfl rfl rfl rfl, { i.rinv with uans := ?_ }⟩
            intro u mu
            rcases List.mem_cons.mp mu with rfl | mu
            · show (t.c.recs r).isSome = true
              rw [k2 hp.1]
              have : r ∈ c.matching q.name q.type := by rw [hm]; simp
              obtain ⟨x, hx, _⟩ := isRec_name (List.mem_filter.mp this).2
              rw [hx]
              rfl
            · exact i.rinv.uans u mu
        · refine ⟨t.did, t.c, t.l, ?_, n⟩
          rw [if_neg (fun hh : ¬ t.conf = true ∧ src.port ≠ 5353 => hp ⟨by simpa using hh.1, hh.2⟩)]
          rfl
  · rw [if_pos hc]
    exact ⟨did, c, l, rfl, .nil h⟩

theorem inQuestionsR_ok {env : Env} {p : Reaction} (hcp : p.Considerate) {m : Msg} {src : Addr} : ∀ (qs : List Question) (did : Bool) {c : Core}
    {l : Lists}, DInv c l → ∃ c' l', inQuestionsR env p m src qs did ⟨c, l⟩ = .ok ((), ⟨c', l'⟩) ∧ Trail env p c l c' l'
  | [], did, c, l, h => ⟨c, l, rfl, .nil h⟩
  | q :: qs, did, c, l, h => by
    obtain ⟨did', c1, l1, e1, n1⟩ := inQuestionR_ok (env := env) hcp (m := m) (src := src) (q := q) (did := did) h
    obtain ⟨c', l', e, n⟩ := inQuestionsR_ok hcp qs did' n1.inv
    refine ⟨c', l', ?_, n1.trans n⟩
    unfold inQuestionsR
    rw [M.bind_ok e1]
    exact e

theorem cached_calm {env : Env} {a : Resource} {src : Addr} {c c' : Core} (h : CInv c) (ha : a.WF)
    (e : (c.received a).cacheIn env a src = .ok c') :
    c'.recs = c.recs ∧ c'.published = c.published ∧ CalmLog c.log c'.log := by
  have hr : CalmLog c.log (c.received a).log := by
    unfold Core.received Core.heard
    refine ⟨_, rfl, fun e m r n t he => ?_⟩
    subst he
    split at m <;> simp at m
  obtain ⟨c1, c2, ev1, ev2, e2, hc, _⟩ := (h.received a).cacheIn env ha src
  rw [e] at e2
  cases e2
  refine ⟨(congrArg Core.recs hc.rest : c'.rest.recs = (c.received a).rest.recs),
    (congrArg Core.published hc.rest : c'.rest.published = (c.received a).rest.published), hr.trans ⟨_, hc.log, ?_⟩⟩
  intro ev m r n t he
  subst he
  have hz := Lasting.cacheIn_conf (r := r) e
  rw [hc.log, conflictsOf_append] at hz
  have h0 : conflictsOf r (ev1 ++ ev2) = 0 := by omega
  unfold conflictsOf at h0
  rw [List.countP_eq_zero] at h0
  exact h0 _ m (by simp)

theorem inAnswer_rest_trail {env : Env} {p : Reaction} {src : Addr} {a : Resource} {c : Core} {l : Lists} (h : DInv c l) (ha : a.WF) :
    ∃ c', inAnswer.rest env src a ⟨c, l⟩ = .ok ((), ⟨c', l⟩) ∧ Trail env p c l c' l := by
  obtain ⟨_, c', _, _, e, _⟩ := (h.cinv.received a).cacheIn env ha src
  obtain ⟨h1, h2, h3⟩ := cached_calm h.cinv ha e
  exact ⟨c', inAnswer_rest_ok e, .one h (cached_inv h ha e) h1 h2 rfl h3⟩

/-- The rest of `inAnswerR` once it is known which record is in conflict. -/
def inAnswerRK (env : Env) (p : Reaction) (src : Addr) (a : Resource) (did : Bool) (bad : Option Nat) : M Lists Bool :=
  match bad with
  | none => do
    inAnswer.rest env src a
    pure did
  | some r => do
    if !did then modC (refreshLocals env true)
    if ← isLocal env src then pure true
    else do
      conflictR env p r
      inAnswer.rest env src a
      pure true

theorem inAnswerR_ok {env : Env} {p : Reaction} (hcp : p.Considerate) {src : Addr} {a : Resource} {did : Bool} {c : Core} {l : Lists}
    (h : DInv c l) (ha : a.WF) : ∃ did' c' l', inAnswerR env p src a did ⟨c, l⟩ = .ok (did', ⟨c', l'⟩) ∧ Trail env p c l c' l' := by
  have key : ∀ bad, c.rival a = bad → ∃ did' c' l', inAnswerRK env p src a did bad ⟨c, l⟩ = .ok (did', ⟨c', l'⟩) ∧ Trail env p c l c' l' := by
    intro bad hb
    cases bad with
    | none =>
      obtain ⟨c', e, n⟩ := inAnswer_rest_trail (env := env) (p := p) (src := src) h ha
      refine ⟨did, c', l, ?_, n⟩
      unfold inAnswerRK
      dsimp only
      rw [M.bind_ok e]
      rfl
    | some r =>
      have hr := hb
      unfold Core.rival at hr
      split at hr
      · cases hr
      · rename_i r' hm
        split at hr
        · cases hr
        · rename_i x hx
          split at hr
          · rename_i hu
            cases hr
            have e1 : ∃ c1 : Core, inAnswerRK env p src a did (some r) ⟨c, l⟩ = (do
                if ← isLocal env src then pure true
                else do
                  conflictR env p r
                  inAnswer.rest env src a
                  pure true : M Lists Bool) ⟨c1, l⟩ ∧ Locals env c c1 := by
              cases did with
              | true => exact ⟨c, rfl, .refl c⟩
              | false => exact ⟨refreshLocals env true c, rfl, refreshLocals_locals env true c⟩
            obtain ⟨c1, e1, l1⟩ := e1
            rw [e1]
            obtain ⟨b, c2, e2, l2, _⟩ := isLocal_ok env src c1 l
            rw [M.bind_ok e2]
            have l12 := l1.trans l2
            cases b with
            | true => exact ⟨true, c2, l, rfl, l12.trail h⟩
            | false =>
              have hx2 : c2.recs r = some x := by rw [l12.recs]; exact hx
              obtain ⟨c3, l3, x3, e3, i3, _, hx3, _, t3⟩ := conflictR_ok (env := env) hcp ⟨l12.cinv h.cinv, l12.rinv h.rinv⟩ hx2 hu.1
              obtain ⟨c', e, n⟩ := inAnswer_rest_trail (env := env) (p := p) (src := src) t3.inv ha
              refine ⟨true, c', _, ?_, ((l12.trail h).trans t3).trans n⟩
              rw [if_neg (by simp), M.bind_ok e3]
              exact (M.bind_ok e).trans rfl
          · cases hr
  obtain ⟨did', c', l', e, n⟩ := key _ rfl
  refine ⟨did', c', l', ?_, n⟩
  rw [← e]
  unfold inAnswerR
  rw [M.bind_ok (rFirst_ok h.rinv _ _)]
  unfold Core.rival
  cases hm : (c.matching a.name a.type).head? with
  | none => rfl
  | some r =>
    have : r ∈ c.matching a.name a.type := List.mem_of_head? hm
    obtain ⟨x, hx, _⟩ := isRec_name (List.mem_filter.mp this).2
    dsimp only
    rw [M.bind_ok (getRec_ok hx), hx]
    rfl

theorem inAnswersR_ok {env : Env} {p : Reaction} (hcp : p.Considerate) {src : Addr} : ∀ (as : List Resource) (did : Bool) {c : Core} {l : Lists},
    (∀ a ∈ as, a.WF) → DInv c l → ∃ c' l', inAnswersR env p src as did ⟨c, l⟩ = .ok ((), ⟨c', l'⟩) ∧ Trail env p c l c' l'
  | [], did, c, l, _, h => ⟨c, l, rfl, .nil h⟩
  | a :: as, did, c, l, ha, h => by
    obtain ⟨did', c1, l1, e1, n1⟩ := inAnswerR_ok (env := env) hcp (src := src) (did := did) h (ha a (by simp))
    obtain ⟨c', l', e, n⟩ := inAnswersR_ok hcp as did' (fun a m => ha a (by simp [m])) n1.inv
    refine ⟨c', l', ?_, n1.trans n⟩
    unfold inAnswersR
    rw [M.bind_ok e1]
    exact e

theorem inMsgR_ok {env : Env} {p : Reaction} (hcp : p.Considerate) {now : TV} {m : Msg} {src : Addr} {c : Core} {l : Lists} (h : DInv c l)
    (hm : ∀ a ∈ m.an, a.WF) : ∃ ret c' l', inMsgR env p now m src ⟨c, l⟩ = .ok (ret, ⟨c', l'⟩) ∧ Trail env p c l c' l' := by
  unfold inMsgR
  rw [M.bind_ok core_ok]
  cases hs : c.shutdown with
  | true => exact ⟨1, c, l, rfl, .nil h⟩
  | false =>
    rw [if_neg (by simp), M.bind_ok modC_ok]
    have h0 := h.atNow now
    obtain ⟨b, c1, e1, hl, hf⟩ := isLocal_ok env src { c with now := now } l
    have h1 : DInv c1 l := ⟨hl.cinv h0.cinv, hl.rinv h0.rinv⟩
    have t1 : Trail env p c l c1 l := (Trail.one h h0 rfl rfl rfl (.refl _)).trans (hl.trail h0)
    rw [M.bind_ok e1]
    cases b with
    | true => exact ⟨0, c1, l, rfl, t1⟩
    | false =>
      cases hq : m.header.qr with
      | false =>
        obtain ⟨c', l', e, n⟩ := inQuestionsR_ok (env := env) hcp (m := m) (src := src) m.qd false h1
        exact ⟨0, c', l', (M.bind_ok e).trans rfl, t1.trans n⟩
      | true =>
        obtain ⟨c', l', e, n⟩ := inAnswersR_ok (env := env) hcp (src := src) m.an false hm h1
        exact ⟨0, c', l', (M.bind_ok e).trans rfl, t1.trans n⟩

/-- Is it `mdnsd_in`? -/
def Op.isRecv : Op → Bool
  | .recv _ _ _ => true
  | _ => false

theorem stepR_other {Q : Type} [QOps Q] (env : Env) (p : Reaction) {o : Op} (h : o.isRecv = false) :
    (stepR env p o : M Q OpOut) = step env o := by
  cases o <;> first | rfl | cases h

/-! ### Heads and links -/

namespace Sim

theorem reactWith (env : Env) : ∀ fs, Sim (Mdns.reactWith env fs) (Mdns.reactWith env fs)
  | [] => pure _
  | f :: fs => by
    have ih := reactWith env fs
    unfold Mdns.reactWith
    sim
macro_rules | `(tactic| sim1) => `(tactic| with_reducible apply Sim.reactWith)

theorem conflictR (env : Env) (p : Reaction) (r : Nat) : Sim (Mdns.conflictR env p r) (Mdns.conflictR env p r) := by
  unfold Mdns.conflictR
  refine bind (getRec _) fun x => ?_
  cases x.conflict <;> sim
macro_rules | `(tactic| sim1) => `(tactic| with_reducible apply Sim.conflictR)

theorem probeConflictR (env : Env) (p : Reaction) (src : Addr) (q : Question) (r : Nat) : ∀ l did,
    Sim (Mdns.probeConflictR env p src q r l did) (Mdns.probeConflictR env p src q r l did)
  | [], _ => pure _
  | a :: rest, did => by
    have ih := probeConflictR env p src q r rest
    unfold Mdns.probeConflictR
    sim
    all_goals exact ih _
macro_rules | `(tactic| sim1) => `(tactic| with_reducible apply Sim.probeConflictR)

theorem answerLoopR (env : Env) (p : Reaction) (src : Addr) (q : Question) (an : List Resource) : ∀ n o did conf,
    Sim (Mdns.answerLoopR env p src q an n o did conf) (Mdns.answerLoopR env p src q an n o did conf)
  | 0, none, _, _ => pure _
  | _ + 1, none, _, _ => pure _
  | 0, some _, _, _ => hang
  | n + 1, some r, did, conf => by
    have ih := answerLoopR env p src q an n
    unfold Mdns.answerLoopR
    sim
    all_goals exact ih _ _ _
macro_rules | `(tactic| sim1) => `(tactic| with_reducible apply Sim.answerLoopR)

theorem inQuestionR (env : Env) (p : Reaction) (m : Msg) (src : Addr) (q : Question) (did : Bool) :
    Sim (Mdns.inQuestionR env p m src q did) (Mdns.inQuestionR env p m src q did) := by
  unfold Mdns.inQuestionR
  refine bind core fun c => ite (pure _) (bind (rFirst _ _) fun r => ?_)
  cases r <;> sim
macro_rules | `(tactic| sim1) => `(tactic| with_reducible apply Sim.inQuestionR)

theorem inQuestionsR (env : Env) (p : Reaction) (m : Msg) (src : Addr) : ∀ l did,
    Sim (Mdns.inQuestionsR env p m src l did) (Mdns.inQuestionsR env p m src l did)
  | [], _ => pure _
  | q :: rest, did => by
    have ih := inQuestionsR env p m src rest
    unfold Mdns.inQuestionsR
    sim
    all_goals exact ih _
macro_rules | `(tactic| sim1) => `(tactic| with_reducible apply Sim.inQuestionsR)

theorem inAnswerR (env : Env) (p : Reaction) (src : Addr) (a : Resource) (did : Bool) :
    Sim (Mdns.inAnswerR env p src a did) (Mdns.inAnswerR env p src a did) := by
  unfold Mdns.inAnswerR
  refine bind (rFirst _ _) fun r => ?_
  have key : ∀ bad : Option Nat, Sim
      (match bad with
      | none => do
        Mdns.inAnswer.rest env src a
        Pure.pure did
      | some r => do
        if !did then M.modC (refreshLocals env true)
        if ← Mdns.isLocal env src then Pure.pure true
        else do
          Mdns.conflictR env p r
          Mdns.inAnswer.rest env src a
          Pure.pure true)
      (match bad with
      | none => do
        Mdns.inAnswer.rest env src a
        Pure.pure did
      | some r => do
        if !did then M.modC (refreshLocals env true)
        if ← Mdns.isLocal env src then Pure.pure true
        else do
          Mdns.conflictR env p r
          Mdns.inAnswer.rest env src a
          Pure.pure true) := by
    intro bad
    cases bad <;> sim
  cases r
  · exact bind (pure _) key
  · exact bind (getRec _) fun x => bind (pure _) key
macro_rules | `(tactic| sim1) => `(tactic| with_reducible apply Sim.inAnswerR)

theorem inAnswersR (env : Env) (p : Reaction) (src : Addr) : ∀ l did,
    Sim (Mdns.inAnswersR env p src l did) (Mdns.inAnswersR env p src l did)
  | [], _ => pure _
  | q :: rest, did => by
    have ih := inAnswersR env p src rest
    unfold Mdns.inAnswersR
    sim
    all_goals exact ih _
macro_rules | `(tactic| sim1) => `(tactic| with_reducible apply Sim.inAnswersR)

theorem inMsgR (env : Env) (p : Reaction) (now : TV) (m : Msg) (src : Addr) : Sim (Mdns.inMsgR env p now m src) (Mdns.inMsgR env p now m src) := by
  unfold Mdns.inMsgR
  sim
macro_rules | `(tactic| sim1) => `(tactic| with_reducible apply Sim.inMsgR)

theorem stepR (env : Env) (p : Reaction) (o : Op) : Sim (Mdns.stepR env p o) (Mdns.stepR env p o) := by
  cases o with
  | recv now m src =>
    unfold Mdns.stepR
    sim
  | _ =>
    rw [stepR_other env p rfl, stepR_other env p rfl]
    exact Sim.step env _

end Sim

end Mdns
