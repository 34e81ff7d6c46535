import Verif.Model.Ending
import Verif.Props.Alloc
import Verif.Props.Packets
import Verif.Props.Queries

/-!
# C105: callbacks that end queries
-/

namespace Mdns

set_option linter.unusedSectionVars false

open M

/-! ### What a program may do -/

/-- A callback that returns -1, which ends the query it is called for, does not end queries for the name of the record with `mdnsd_query` in the
same call. -/
def Prog.Polite (p : Prog) : Prop := ∀ log q cb rr, (p (log ++ [.answer q cb rr])).stop = true →
  ∀ x ∈ (p (log ++ [.answer q cb rr])).calls, x.2.2 = none → x.1 ≠ rr.name

/-- Callbacks end queries by returning -1 only. -/
def Prog.Plain (p : Prog) : Prop := ∀ log, ∀ x ∈ (p log).calls, x.2.2 ≠ none

/-- Callbacks never return -1. -/
def Prog.Silent (p : Prog) : Prop := ∀ log, (p log).stop = false

theorem Prog.Plain.polite {p : Prog} (h : p.Plain) : p.Polite := fun _ _ _ _ _ x m hn => absurd hn (h _ x m)
theorem Prog.Silent.polite {p : Prog} (h : p.Silent) : p.Polite := fun _ _ _ _ hs => by rw [h _] at hs; cases hs

/-- The queries registered by these calls. -/
def regsOf (l : List (Bytes × Nat × Option Nat)) : List (Bytes × Nat × Nat) := l.filterMap fun x => x.2.2.map fun cb => (x.1, x.2.1, cb)

/-- The environment in which callbacks register the queries of `p`, and return what they return in `p`. -/
def Prog.Serves (p : Prog) (env : Env) : Prop := ∀ log, env.answer log = { stop := (p log).stop, reg := regsOf (p log).calls }

/-! ### Callbacks that only register queries -/

theorem calls_register : ∀ (l : List (Bytes × Nat × Option Nat)) (c : Core), (∀ x ∈ l, x.2.2 ≠ none) → c.calls l = c.register (regsOf l)
  | [], _, _ => rfl
  | (host, type, none) :: l, c, h => absurd rfl (h (host, type, none) (by simp))
  | (host, type, some cb) :: l, c, h => by
    unfold Core.calls
    have : regsOf ((host, type, some cb) :: l) = (host, type, cb) :: regsOf l := rfl
    rw [this]
    unfold Core.register
    cases c.query host type (some cb) with
    | ub => rfl
    | hang => rfl
    | ok c1 => exact calls_register l c1 fun x m => h x (by simp [m])

section Plain

variable {env : Env} {p : Prog} (hp : p.Plain) (he : p.Serves env)
include hp he

theorem callAnswerE_plain (c : Core) (q : Nat) (rr : Answer) : c.callAnswerE p q rr = c.callAnswer env q rr := by
  unfold Core.callAnswerE Core.callAnswer
  cases c.qs q with
  | none => rfl
  | some x =>
    dsimp only
    rw [calls_register _ _ (hp _), he]
    rfl

theorem qAnswerE_plain (c : Core) (e : Cached) : c.qAnswerE p e = c.qAnswer env e := by
  unfold Core.qAnswerE Core.qAnswer
  cases e.q with
  | none => rfl
  | some q =>
    dsimp only
    rw [callAnswerE_plain hp he]
    rfl

theorem cExpireFE_plain (i : Nat) : ∀ (n k : Nat) (c : Core), Core.cExpireFE p i n k c = Core.cExpireF env i n k c
  | 0, _, _ => rfl
  | n + 1, k, c => by
    unfold Core.cExpireFE Core.cExpireF
    simp only [qAnswerE_plain hp he, cExpireFE_plain i n]
    rfl

theorem cExpireE_plain (c : Core) (i : Nat) : c.cExpireE p i = c.cExpire env i := cExpireFE_plain hp he i _ _ _

theorem gcE_plain (c : Core) : c.gcE p = c.gc env := by
  have : ∀ n c, Core.gcE.go p n c = Core.gc.go env n c := by
    intro n
    induction n with
    | zero => intro c; rfl
    | succ n ih =>
      intro c
      unfold Core.gcE.go Core.gc.go
      simp only [cExpireE_plain hp he, ih]
      rfl
  unfold Core.gcE Core.gc
  rw [this]
  rfl

theorem deleteFE_plain (r : Resource) (i : Nat) : ∀ (n : Nat) (c : Core), Core.deleteFE p r i n c = Core.deleteF env r i n c
  | 0, _ => rfl
  | n + 1, c => by
    unfold Core.deleteFE Core.deleteF
    simp only [cExpireE_plain hp he, deleteFE_plain r i n]
    rfl

theorem cacheInE_plain (c : Core) (r : Resource) (src : Addr) : c.cacheInE p r src = c.cacheIn env r src := by
  have h1 : ∀ c : Core, c.flushE p r = c.flush env r := by
    intro c
    unfold Core.flushE Core.flush
    simp only [cExpireE_plain hp he]
  have h2 : ∀ c : Core, c.insertE p r src = c.insert env r src := by
    intro c
    unfold Core.insertE Core.insert
    simp only [callAnswerE_plain hp he]
    rfl
  unfold Core.cacheInE Core.cacheIn
  simp only [h1, h2, deleteFE_plain hp he]
  rfl

end Plain

variable {Q : Type} [QOps Q]

theorem inAnswerE_eq (env : Env) (p : Prog) (src : Addr) (a : Resource) (did : Bool) :
    (inAnswerE env p src a did : M Q Bool) = ansW env src a (inAnswerE.rest p src a) did := rfl

theorem inMsgE_plain {env : Env} {p : Prog} (hp : p.Plain) (he : p.Serves env) (now : TV) (m : Msg) (src : Addr) :
    (inMsgE env p now m src : M Q Nat) = inMsg env now m src := by
  have h1 : ∀ a, (inAnswerE.rest p src a : M Q Unit) = inAnswer.rest env src a := by
    intro a
    unfold inAnswerE.rest inAnswer.rest
    simp only [cacheInE_plain hp he]
  have h2 : ∀ a did, (inAnswerE env p src a did : M Q Bool) = inAnswer env src a did := by
    intro a did
    rw [inAnswerE_eq, inAnswer_eq, h1]
  have h3 : ∀ as did, (inAnswersE env p src as did : M Q Unit) = inAnswers env src as did := by
    intro as
    induction as with
    | nil => intro did; rfl
    | cons a as ih =>
      intro did
      unfold inAnswersE inAnswers
      simp only [h2, ih]
  unfold inMsgE inMsg
  simp only [h3]

/-! ### The cache stays sound -/

/-- Queries for the name `n`, and those of the cached records of that name, are still there. -/
structure Unended (n : Bytes) (c c' : Core) : Prop where
  qs : ∀ q x, c.qs q = some x → x.name = n → ∃ x', c'.qs q = some x' ∧ x'.name = n
  entries : ∀ (i k : Nat) (a : Cached), (c.cache i)[k]? = some a → a.rr.name = n → a.q.isSome →
    ∃ b : Cached, (c'.cache i)[k]? = some b ∧ b.rr.name = n ∧ b.q.isSome

theorem Unended.refl (n : Bytes) (c : Core) : Unended n c c := ⟨fun _ x hx hn => ⟨x, hx, hn⟩, fun _ _ a ha hn hq => ⟨a, ha, hn, hq⟩⟩

theorem Unended.trans {n : Bytes} {a b c : Core} (h : Unended n a b) (h' : Unended n b c) : Unended n a c := by
  refine ⟨fun q x hx hn => ?_, fun i k x hx hn hq => ?_⟩
  · obtain ⟨y, hy, hm⟩ := h.qs q x hx hn
    exact h'.qs q y hy hm
  · obtain ⟨y, hy, hm, hs⟩ := h.entries i k x hx hn hq
    exact h'.entries i k y hy hm hs

theorem Regd.unended {c c' : Core} (h : Regd c c') (n : Bytes) : Unended n c c' := by
  refine ⟨fun q x hx hn => ?_, fun i k a ha hn hq => ?_⟩
  · obtain ⟨x', hx', e, _⟩ := h.qs_ex hx
    exact ⟨x', hx', e.trans hn⟩
  · obtain ⟨b, hb, hs⟩ := h.entries i k a ha hq
    refine ⟨b, hb, ?_, hs⟩
    have e : (c'.rrs i)[k]? = (c.rrs i)[k]? := by rw [h.rrs i]
    unfold Core.rrs at e
    rw [List.getElem?_map, List.getElem?_map, ha, hb] at e
    simp only [Option.map_some, Option.some.injEq] at e
    rw [e]
    exact hn

theorem CInv.queryOff_unended {c c' : Core} (h : CInv c) {host n : Bytes} {type : Nat} (hn : host ≠ n) (e : c.query host type none = .ok c') :
    Unended n c c' := by
  obtain ⟨o, h1, h2, _⟩ := h.qFind host type
  unfold Core.query at e
  rw [h1] at e
  cases o with
  | none => cases e; exact .refl n c
  | some q =>
    obtain ⟨x, hx, e1, e2⟩ := h2 q rfl
    simp only at e
    unfold Core.qDone at e
    rw [hx] at e
    dsimp only at e
    split at e
    · cases e
      refine ⟨fun q' x' hx' hn' => ⟨x', ?_, hn'⟩, fun i k a ha hn' hq => ⟨a, ?_, hn', hq⟩⟩
      · show upd c.qs q none q' = some x'
        unfold upd
        rw [if_neg]
        · exact hx'
        · rintro rfl
          rw [hx] at hx'
          cases hx'
          exact hn (e1.symm.trans hn')
      · show ((c.assoc x.name x.type none).cache i)[k]? = some a
        unfold Core.assoc
        simp only [upd]
        split
        · rename_i hi
          unfold Core.chain
          rw [List.getElem?_map, ← hi, ha]
          simp only [Option.map_some, Option.some.injEq]
          rw [if_neg]
          rw [is_iff]
          rintro ⟨f1, _⟩
          exact hn (by rw [← e1, ← f1]; exact hn')
        · exact ha
    · cases e

theorem CInv.calls : ∀ (l : List (Bytes × Nat × Option Nat)) {c : Core}, CInv c →
    ∃ c', c.calls l = .ok c' ∧ QStep c c' ∧ ∀ n, (∀ x ∈ l, x.2.2 = none → x.1 ≠ n) → Unended n c c'
  | [], c, h => ⟨c, rfl, .refl h, fun n _ => .refl n c⟩
  | (host, type, a) :: l, c, h => by
    have key : ∃ c1, c.query host type a = .ok c1 ∧ QStep c c1 ∧ ∀ n, (a = none → host ≠ n) → Unended n c c1 := by
      cases a with
      | none =>
        obtain ⟨c1, e, n⟩ := h.query_ok host type none
        exact ⟨c1, e, n, fun n hh => h.queryOff_unended (hh rfl) e⟩
      | some cb =>
        obtain ⟨c1, e, n, _⟩ := h.queryOn host type cb
        exact ⟨c1, e, n.toQStep, fun m _ => n.unended m⟩
    obtain ⟨c1, e1, n1, r1⟩ := key
    obtain ⟨c', e2, n2, r2⟩ := CInv.calls l n1.inv
    refine ⟨c', ?_, n1.trans n2, fun n hh => (r1 n (hh (host, type, a) (by simp))).trans (r2 n fun x m => hh x (by simp [m]))⟩
    unfold Core.calls
    rw [e1]
    exact e2

theorem CInv.callAnswerE {c : Core} (h : CInv c) {p : Prog} (hp : p.Polite) {q : Nat} {x : Query} {rr : Answer}
    (hx : c.qs q = some x) (hn : x.name = rr.name) (ht : typeFits x.type rr) :
    ∃ b c', c.callAnswerE p q rr = .ok (b, c') ∧ QStep c c' ∧ (b = true → Unended rr.name c c') := by
  have h1 : CInv { c with log := c.log ++ [.answer q x.cb (c.seen rr)] } := by
    apply h.addAnswer hx
    · rw [hn]; unfold Core.seen; split <;> rfl
    · unfold Core.seen; split <;> exact ht
  obtain ⟨c', e1, s1, r1⟩ := h1.calls (p (c.log ++ [.answer q x.cb (c.seen rr)])).calls
  have e2 : c.callAnswerE p q rr =
      match ({ c with log := c.log ++ [.answer q x.cb (c.seen rr)] } : Core).calls (p (c.log ++ [.answer q x.cb (c.seen rr)])).calls with
      | .ok c' => .ok ((p (c.log ++ [.answer q x.cb (c.seen rr)])).stop, c')
      | .ub => .ub
      | .hang => .hang := by
    unfold Core.callAnswerE
    rw [hx]
    rfl
  rw [e1] at e2
  refine ⟨_, c', e2, ⟨s1.inv, s1.rrs, s1.rest⟩, fun hs => ?_⟩
  have hr : (c.seen rr).name = rr.name := by unfold Core.seen; split <;> rfl
  have := r1 rr.name (by
    intro y m hy
    have := hp _ _ _ _ hs y m hy
    rw [hr] at this
    exact this)
  exact ⟨this.qs, this.entries⟩

theorem CInv.qAnswerE {c : Core} (h : CInv c) {p : Prog} (hp : p.Polite) (e : Cached)
    (he : ∀ q, e.q = some q → ∃ x, c.qs q = some x ∧ x.name = e.rr.name ∧ typeFits x.type e.rr) :
    ∃ c', c.qAnswerE p e = .ok c' ∧ QStep c c' := by
  unfold Core.qAnswerE
  cases hq : e.q with
  | none => exact ⟨c, rfl, .refl h⟩
  | some q =>
    obtain ⟨x, hx, e1, e2⟩ := he q hq
    obtain ⟨b, c1, f1, f2, f3⟩ := h.callAnswerE hp hx e1 e2
    dsimp only
    rw [f1]
    cases b with
    | false => exact ⟨c1, rfl, f2⟩
    | true =>
      obtain ⟨x', hx', _⟩ := (f3 rfl).qs q x hx e1
      obtain ⟨c2, k1, k2, _⟩ := f2.inv.qDone hx'
      exact ⟨c2, k1, f2.trans k2⟩

/-- The state after chain `i` became `l`. -/
structure Chained (i : Nat) (l : List Answer) (c c' : Core) : Prop where
  inv : CInv c'
  rest : c'.rest = c.rest
  other : ∀ j, j ≠ i → c'.rrs j = c.rrs j
  self : c'.rrs i = l

theorem CInv.cExpireFE {p : Prog} (hp : p.Polite) (i : Nat) : ∀ (fuel k : Nat) (c : Core), CInv c →
    (c.cache i).length - k < fuel →
    ∃ c', Core.cExpireFE p i fuel k c = .ok c' ∧ Chained i ((c.rrs i).take k ++ ((c.rrs i).drop k).filter c.live) c c'
  | 0, _, _, _, hf => absurd hf (by simp)
  | fuel + 1, k, c, h, hf => by
    cases hk : (c.cache i)[k]? with
    | none =>
      have hlen := List.getElem?_eq_none_iff.mp hk
      have hd : (c.cache i).drop k = [] := List.drop_eq_nil_of_le hlen
      have ht : (c.cache i).take k = c.cache i := List.take_of_length_le hlen
      refine ⟨c, by simp only [Core.cExpireFE, hk], h, rfl, fun _ _ => rfl, ?_⟩
      unfold Core.rrs
      rw [← List.map_take, ← List.map_drop, hd, ht]
      simp
    | some e =>
      have hlt : k < (c.cache i).length := by
        rcases Nat.lt_or_ge k (c.cache i).length with hh | hh
        · exact hh
        · rw [List.getElem?_eq_none_iff.mpr hh] at hk
          exact absurd hk (by simp)
      have hmem : e ∈ c.cache i := List.mem_of_getElem? hk
      have hdrop : (c.cache i).drop k = e :: (c.cache i).drop (k + 1) := by
        rw [List.drop_eq_getElem_cons hlt]
        rw [List.getElem?_eq_getElem hlt] at hk
        cases hk
        rfl
      have hdr : (c.rrs i).drop k = e.rr :: (c.rrs i).drop (k + 1) := by
        simp only [Core.rrs, ← List.map_drop, hdrop, List.map_cons]
      by_cases hexp : c.now.sec ≥ e.rr.ttl
      · have hl : c.live e.rr = false := by simp [Core.live]; exact hexp
        have h1 : CInv { c with cache := upd c.cache i ((c.cache i).eraseIdx k) } := by
          refine h.withCache _ (fun j e' m => ?_) (fun j => ?_)
          · simp only [upd] at m
            split at m
            · rename_i hj
              exact ⟨e', hj ▸ List.mem_of_mem_eraseIdx m, rfl, rfl, rfl⟩
            · exact ⟨e', m, rfl, rfl, rfl⟩
          · simp only [upd]
            split
            · exact (h.cuniq i).sublist (List.eraseIdx_sublist _ _)
            · exact h.cuniq j
        obtain ⟨c1, e1, s1⟩ := h1.qAnswerE hp e (fun q hq => h.cq i e q hmem hq)
        have hself : c1.rrs i = (c.rrs i).eraseIdx k := by
          rw [s1.rrs i]
          simp only [Core.rrs, upd_same, map_eraseIdx]
        have hother : ∀ j, j ≠ i → c1.rrs j = c.rrs j := by
          intro j hj
          rw [s1.rrs j]
          simp only [Core.rrs, upd, hj, if_false]
        have hlen1 : (c1.cache i).length = (c.cache i).length - 1 := by
          have := congrArg List.length hself
          simp only [Core.rrs, List.length_map, List.length_eraseIdx] at this
          rw [this, if_pos hlt]
        obtain ⟨c2, e2, s2⟩ := CInv.cExpireFE hp i fuel k c1 s1.inv (by omega)
        have hnow : c1.now = c.now := s1.now
        have hlive : c1.live = c.live := by
          funext a
          simp only [Core.live, hnow]
        refine ⟨c2, ?_, s2.inv, s2.rest.trans s1.rest, fun j hj => (s2.other j hj).trans (hother j hj), ?_⟩
        · simp only [Core.cExpireFE, hk, if_pos hexp, e1]
          exact e2
        · rw [s2.self, hself, hlive, take_eraseIdx, drop_eraseIdx, hdr, List.filter_cons, hl]
          rfl
      · have hl : c.live e.rr = true := by simp [Core.live]; omega
        obtain ⟨c2, e2, s2⟩ := CInv.cExpireFE hp i fuel (k + 1) c h (by omega)
        have htake : (c.cache i).take (k + 1) = (c.cache i).take k ++ [e] := by
          rw [List.take_add_one, hk]
          rfl
        have htr : (c.rrs i).take (k + 1) = (c.rrs i).take k ++ [e.rr] := by
          simp only [Core.rrs, ← List.map_take, htake, List.map_append, List.map_cons, List.map_nil]
        refine ⟨c2, ?_, s2.inv, s2.rest, s2.other, ?_⟩
        · simp only [Core.cExpireFE, hk, if_neg hexp]
          exact e2
        · rw [s2.self, htr, hdr, List.filter_cons, hl]
          simp

theorem CInv.cExpireE {c : Core} (h : CInv c) {p : Prog} (hp : p.Polite) (i : Nat) :
    ∃ c', c.cExpireE p i = .ok c' ∧ Chained i ((c.rrs i).filter c.live) c c' := by
  simpa [Core.cExpireE] using CInv.cExpireFE hp i ((c.cache i).length + 1) 0 c h (by omega)

theorem CInv.zapE {c : Core} (h : CInv c) {p : Prog} (hp : p.Polite) (i : Nat) (f : Answer → Bool) :
    ∃ c', (c.zeroed i f).cExpireE p i = .ok c' ∧ Chained i ((c.rrs i).filter fun a => c.live a && !f a) c c' := by
  obtain ⟨c', e, n⟩ := (h.zeroed i f).cExpireE hp i
  have hlive : (c.zeroed i f).live = c.live := rfl
  have hch : (c.zeroed i f).cache i = (c.cache i).map (zero f) := by simp only [Core.zeroed, upd_same]
  refine ⟨c', e, n.inv, n.rest, fun j hj => ?_, ?_⟩
  · rw [n.other j hj]
    unfold Core.rrs
    simp only [Core.zeroed, upd, hj, if_false]
  · rw [n.self, hlive]
    unfold Core.rrs
    rw [hch, filter_rr, filter_zero, filter_rr]

theorem CInv.deleteE {c : Core} (h : CInv c) {p : Prog} (hp : p.Polite) {r : Resource} (hr : r.WF) (fuel : Nat) :
    ∃ c', Core.deleteFE p r (bucket r.name lprime) (fuel + 2) c = .ok c' ∧ CInv c' ∧ c'.rest = c.rest := by
  have hany : ∀ c : Core, (c.cache (bucket r.name lprime)).findIdx? (fun e => hit r e.rr) = none ↔
      (c.rrs (bucket r.name lprime)).any (hit r) = false := by
    intro c
    rw [List.findIdx?_eq_none_iff, Core.rrs, List.any_map, List.any_eq_false]
    simp [Function.comp]
  cases hf : (c.cache (bucket r.name lprime)).findIdx? (fun e => hit r e.rr) with
  | none =>
    refine ⟨c, ?_, h, rfl⟩
    unfold Core.deleteFE
    show (match (c.cache (bucket r.name lprime)).findIdx? (fun e => hit r e.rr) with
      | none => _
      | some k => _) = _
    rw [hf]
  | some k =>
    have hm : (c.modEntry (bucket r.name lprime) k fun e => { e with rr := { e.rr with ttl := 0 } }) =
        c.zeroed (bucket r.name lprime) (hit r) := by
      unfold Core.modEntry Core.zeroed
      rw [modify_eq_map _ (fun e => hit r e.rr) _ k hf (h.hit_once hr _)]
      rfl
    obtain ⟨c', e, hz⟩ := h.zapE hp (bucket r.name lprime) (hit r)
    have h2 : (c'.cache (bucket r.name lprime)).findIdx? (fun e => hit r e.rr) = none := by
      rw [hany, hz.self, List.any_eq_false]
      intro a m
      simp only [List.mem_filter, Bool.and_eq_true, Bool.not_eq_true'] at m
      simp [m.2.2]
    refine ⟨c', ?_, hz.inv, hz.rest⟩
    unfold Core.deleteFE
    show (match (c.cache (bucket r.name lprime)).findIdx? (fun e => hit r e.rr) with
      | none => _
      | some k => _) = _
    rw [hf]
    simp only [hm, e]
    unfold Core.deleteFE
    show (match (c'.cache (bucket r.name lprime)).findIdx? (fun e => hit r e.rr) with
      | none => _
      | some k => _) = _
    rw [h2]

theorem CInv.deleteE' {c : Core} (h : CInv c) {p : Prog} (hp : p.Polite) {r : Resource} (hr : r.WF) :
    ∃ c', Core.deleteFE p r (bucket r.name lprime) ((c.chain r.name).length + 1) c = .ok c' ∧ CInv c' ∧ c'.rest = c.rest := by
  cases hl : (c.chain r.name).length with
  | succ n => exact h.deleteE hp hr n
  | zero =>
    have hnil : c.cache (bucket r.name lprime) = [] := List.eq_nil_of_length_eq_zero hl
    refine ⟨c, ?_, h, rfl⟩
    unfold Core.deleteFE
    rw [hnil]
    rfl

/-- A new entry belongs to the query for its name and type. -/
theorem CInv.linked {c : Core} (h : CInv c) {r : Resource} (hr : r.WF) {src : Addr} {q : Nat} {x : Query}
    (hf : (c.cache (bucket r.name lprime)).findIdx? (fun e => hit r e.rr) = none) (hx : c.qs q = some x) (e1 : x.name = r.name)
    (e2 : x.type = r.type) : CInv (c.setChain (bucket r.name lprime) ({ rr := Core.newEntry r src (c.expiry r), q := some q } :: c.cache (bucket r.name lprime))) := by
  have hno : (c.rrs (bucket r.name lprime)).any (hit r) = false := by
    rw [List.findIdx?_eq_none_iff] at hf
    rw [Core.rrs, List.any_map, List.any_eq_false]
    simpa [Function.comp] using hf
  refine { h with cbucket := ?_, cq := ?_, cuniq := ?_ }
  · intro j e m
    simp only [Core.setChain, upd] at m
    split at m
    · rename_i hj
      rcases List.mem_cons.mp m with rfl | m
      · simp only [newEntry_name]
        exact hj.symm
      · exact hj ▸ h.cbucket _ e m
    · exact h.cbucket j e m
  · intro j e q0 m hq0
    simp only [Core.setChain, upd] at m
    split at m
    · rcases List.mem_cons.mp m with rfl | m
      · cases hq0
        refine ⟨x, hx, ?_, .inl ?_⟩
        · simp only [newEntry_name]
          exact e1
        · simp only [newEntry_type]
          exact e2
      · exact h.cq _ e q0 m hq0
    · exact h.cq j e q0 m hq0
  · intro j
    simp only [Core.setChain, upd]
    split
    · rw [List.pairwise_cons]
      refine ⟨fun e m hs => ?_, h.cuniq _⟩
      have := (hit_iff hr src (c.expiry r) e.rr).mpr hs
      have h4 := List.any_eq_false.mp hno e.rr (List.mem_map_of_mem m)
      exact h4 this
    · exact h.cuniq j

theorem CInv.insertE {c : Core} (h : CInv c) {p : Prog} (hp : p.Polite) {r : Resource} (hr : r.WF) (src : Addr) :
    ∃ c', c.insertE p r src = .ok c' ∧ CInv c' ∧ c'.rest = c.rest := by
  have hins : c.insertE p r src =
      match (c.cache (bucket r.name lprime)).findIdx? (fun e => hit r e.rr) with
      | some k => .ok (c.modEntry (bucket r.name lprime) k fun e => { e with rr := { e.rr with ttl := c.expiry r } })
      | none =>
        match c.qFind r.name r.type with
        | .ok q =>
          match q with
          | none => .ok (c.setChain (bucket r.name lprime)
              ({ rr := Core.newEntry r src (c.expiry r), q := q } :: c.cache (bucket r.name lprime)))
          | some q0 =>
            match (c.setChain (bucket r.name lprime)
              ({ rr := Core.newEntry r src (c.expiry r), q := q } :: c.cache (bucket r.name lprime))).callAnswerE
                p q0 (Core.newEntry r src (c.expiry r)) with
            | .ok (stop, c) =>
              if stop then
                match (c.cache (bucket r.name lprime)).head? with
                | some { q := some q', .. } => c.qDone q'
                | _ => .ub
              else .ok c
            | .ub => .ub
            | .hang => .hang
        | .ub => .ub
        | .hang => .hang := rfl
  -- the same but for the callback
  let env : Env := { answer := fun _ => { stop := false, reg := [] }, ifaddrs := fun _ => none }
  have hins0 : c.insert env r src =
      match (c.cache (bucket r.name lprime)).findIdx? (fun e => hit r e.rr) with
      | some k => .ok (c.modEntry (bucket r.name lprime) k fun e => { e with rr := { e.rr with ttl := c.expiry r } })
      | none =>
        match c.qFind r.name r.type with
        | .ok q =>
          match q with
          | none => .ok (c.setChain (bucket r.name lprime)
              ({ rr := Core.newEntry r src (c.expiry r), q := q } :: c.cache (bucket r.name lprime)))
          | some q0 =>
            match (c.setChain (bucket r.name lprime)
              ({ rr := Core.newEntry r src (c.expiry r), q := q } :: c.cache (bucket r.name lprime))).callAnswer
                env q0 (Core.newEntry r src (c.expiry r)) with
            | .ok (stop, c) =>
              if stop then
                match (c.cache (bucket r.name lprime)).head? with
                | some { q := some q', .. } => c.qDone q'
                | _ => .ub
              else .ok c
            | .ub => .ub
            | .hang => .hang
        | .ub => .ub
        | .hang => .hang := rfl
  obtain ⟨c0, _, e0, n0, _⟩ := h.insert env hr src
  rw [hins0] at e0
  rw [hins]
  cases hf : (c.cache (bucket r.name lprime)).findIdx? (fun e => hit r e.rr) with
  | some k =>
    rw [hf] at e0
    exact ⟨c0, e0, n0.inv, n0.rest⟩
  | none =>
    rw [hf] at e0
    dsimp only at e0 ⊢
    obtain ⟨o, h1, h2, _⟩ := h.qFind r.name r.type
    rw [h1] at e0 ⊢
    cases o with
    | none => exact ⟨c0, e0, n0.inv, n0.rest⟩
    | some q =>
      dsimp only at e0 ⊢
      obtain ⟨x, hx, e1, e2⟩ := h2 q rfl
      clear e0
      have hi := h.linked hr hf hx e1 e2 (src := src)
      generalize hc1 : c.setChain (bucket r.name lprime)
          ({ rr := Core.newEntry r src (c.expiry r), q := some q } :: c.cache (bucket r.name lprime)) = c1 at hi ⊢
      have hc1q : c1.qs = c.qs := by rw [← hc1]; rfl
      have hc1r : c1.rest = c.rest := by rw [← hc1]; rfl
      have hself : c1.cache (bucket r.name lprime) =
          { rr := Core.newEntry r src (c.expiry r), q := some q } :: c.cache (bucket r.name lprime) := by
        rw [← hc1]
        simp only [Core.setChain, upd_same]
      obtain ⟨b, c2, f1, f2, f3⟩ := hi.callAnswerE hp (rr := Core.newEntry r src (c.expiry r))
        (by rw [hc1q]; exact hx) (by rw [newEntry_name]; exact e1) (.inl (by rw [newEntry_type]; exact e2))
      rw [f1]
      cases b with
      | false => exact ⟨c2, rfl, f2.inv, f2.rest.trans hc1r⟩
      | true =>
        obtain ⟨e, he, _, hs⟩ := (f3 rfl).entries (bucket r.name lprime) 0 { rr := Core.newEntry r src (c.expiry r), q := some q }
          (by rw [hself]; rfl) rfl rfl
        obtain ⟨rr', q'⟩ := e
        cases q' with
        | none => simp at hs
        | some q' =>
          obtain ⟨x', hx', _⟩ := f2.inv.cq (bucket r.name lprime) ⟨rr', some q'⟩ q' (List.mem_of_getElem? he) rfl
          obtain ⟨c3, k1, k2, _⟩ := f2.inv.qDone hx'
          refine ⟨c3, ?_, k2.inv, (k2.rest.trans f2.rest).trans hc1r⟩
          rw [← List.head?_eq_getElem?] at he
          simp only [if_true, he]
          exact k1

theorem CInv.cacheInE {c : Core} (h : CInv c) {p : Prog} (hp : p.Polite) {r : Resource} (hr : r.WF) (src : Addr) :
    ∃ c', c.cacheInE p r src = .ok c' ∧ CInv c' ∧ c'.rest = c.rest := by
  have hfl : ∃ c1, c.flushE p r = .ok c1 ∧ CInv c1 ∧ c1.rest = c.rest := by
    have e0 : c.flushE p r = if r.cls = 32768 + c.cls then
        (c.zeroed (bucket r.name lprime) fun a => a.is r.name r.type).cExpireE p (bucket r.name lprime) else .ok c := rfl
    rw [e0]
    by_cases hc : r.cls = 32768 + c.cls
    · obtain ⟨c1, e, hz⟩ := h.zapE hp (bucket r.name lprime) fun a => a.is r.name r.type
      exact ⟨c1, by rw [if_pos hc]; exact e, hz.inv, hz.rest⟩
    · exact ⟨c, by rw [if_neg hc], h, rfl⟩
  obtain ⟨c1, e1, i1, r1⟩ := hfl
  have he : ∃ c', (if r.ttl = 0 then Core.deleteFE p r (bucket r.name lprime) ((c1.chain r.name).length + 1) c1
      else c1.insertE p r src) = .ok c' ∧ CInv c' ∧ c'.rest = c1.rest := by
    by_cases ht : r.ttl = 0
    · rw [if_pos ht]
      exact i1.deleteE' hp hr
    · rw [if_neg ht]
      exact i1.insertE hp hr src
  obtain ⟨c', e2, i2, r2⟩ := he
  refine ⟨c', ?_, i2, r2.trans r1⟩
  unfold Core.cacheInE
  rw [e1]
  exact e2

theorem CInv.gcE {c : Core} (h : CInv c) {p : Prog} (hp : p.Polite) :
    ∃ c', c.gcE p = .ok c' ∧ CInv c' ∧ (∀ l, RInv c l → RInv c' l) ∧ ∀ i < lprime, c'.rrs i = (c.rrs i).filter c.live := by
  have key : ∀ n (c : Core), n ≤ lprime → CInv c → ∃ c', Core.gcE.go p n c = .ok c' ∧ CInv c' ∧ c'.rest = c.rest ∧
      (∀ i < lprime - n, c'.rrs i = c.rrs i) ∧ ∀ i, lprime - n ≤ i → i < lprime → c'.rrs i = (c.rrs i).filter c.live := by
    intro n
    induction n with
    | zero => intro c _ h; exact ⟨c, rfl, h, rfl, fun _ _ => rfl, fun i h1 h2 => by omega⟩
    | succ n ih =>
      intro c hn h
      obtain ⟨c1, e1, s1⟩ := h.cExpireE hp (lprime - (n + 1))
      obtain ⟨c2, e2, i2, n2, a2, b2⟩ := ih c1 (by omega) s1.inv
      have hnow := rest_now s1.rest
      have hlive : c1.live = c.live := by
        funext a
        simp only [Core.live, hnow]
      refine ⟨c2, ?_, i2, n2.trans s1.rest, fun i hi => ?_, fun i h1 h2 => ?_⟩
      · unfold Core.gcE.go
        rw [e1]
        exact e2
      · rw [a2 i (by omega), s1.other i (by omega)]
      · by_cases hi : i = lprime - (n + 1)
        · subst hi
          rw [a2 _ (by omega), s1.self]
        · rw [b2 i (by omega) h2, hlive, s1.other i hi]
  obtain ⟨c1, e1, i1, n1, _, b1⟩ := key lprime c (Nat.le_refl _) h
  refine ⟨{ c1 with expireall := c1.now.sec + gcInterval }, ?_, { i1 with }, fun l hl => (hl.rest n1).congr rfl rfl rfl, fun i hi => b1 i (by omega) hi⟩
  unfold Core.gcE
  rw [e1]

/-! ### A packet -/

theorem restE_ok {p : Prog} (hp : p.Polite) {src : Addr} {a : Resource} (ha : a.WF) {c : Core} {l : Lists}
    (h : DInv c l) : ∃ c', inAnswerE.rest p src a ⟨c, l⟩ = .ok ((), ⟨c', l⟩) ∧ DInv c' l := by
  obtain ⟨c', e2, hc, hr⟩ := (h.cinv.received a).cacheInE hp ha src
  refine ⟨c', ?_, hc, RInv.rest (h.rinv.congr (c' := c.received a) rfl rfl rfl) hr⟩
  unfold inAnswerE.rest
  rw [M.bind_ok modC_ok]
  have e0 : (if c.recvCb = true then { c with log := c.log ++ [Event.received a] } else c) = c.received a := by
    unfold Core.received
    split
    · rfl
    · exact (heard_nil c).symm
  rw [e0]
  refine liftC_ok ?_
  rw [e2]
  rfl

theorem inAnswerE_ok {env : Env} {p : Prog} (hp : p.Polite) {src : Addr} {a : Resource} (ha : a.WF) {did : Bool} {c : Core}
    {l : Lists} (h : DInv c l) : ∃ did' c' l', inAnswerE env p src a did ⟨c, l⟩ = .ok (did', ⟨c', l'⟩) ∧ DInv c' l' := by
  have hk : ∀ r x, c.recs r = some x → x.unique ≠ 0 → ∃ did' c' l',
      ansK env src (inAnswerE.rest p src a) did (some r) ⟨c, l⟩ = .ok (did', ⟨c', l'⟩) ∧ DInv c' l' := by
    intro r x hx hu
    have e1 : ∃ c1 : Core, ansK env src (inAnswerE.rest p src a) did (some r) ⟨c, l⟩ = (do
        if ← isLocal env src then pure true
        else do
          Mdns.conflict r
          inAnswerE.rest p src a
          pure true : M Lists Bool) ⟨c1, l⟩ ∧ Locals env c c1 := by
      cases did with
      | true => exact ⟨c, rfl, .refl c⟩
      | false => exact ⟨refreshLocals env true c, rfl, refreshLocals_locals env true c⟩
    obtain ⟨c1, e1, l1⟩ := e1
    rw [e1]
    obtain ⟨b, c2, e2, l2, _⟩ := isLocal_ok env src c1 l
    rw [M.bind_ok e2]
    have hl2 := l1.trans l2
    cases b with
    | true => exact ⟨true, c2, l, rfl, hl2.cinv h.cinv, hl2.rinv h.rinv⟩
    | false =>
      have hx2 : c2.recs r = some x := by rw [hl2.recs]; exact hx
      obtain ⟨c', e, hi⟩ := restE_ok (src := src) hp ha (done_inv h hl2 hx2)
      refine ⟨true, c', _, ?_, hi⟩
      rw [if_neg (by simp), M.bind_ok (conflict_ok (hl2.rinv h.rinv) hx2 hu)]
      exact (M.bind_ok e).trans rfl
  have hn : ∃ did' c' l', ansK env src (inAnswerE.rest p src a) did none ⟨c, l⟩ = .ok (did', ⟨c', l'⟩) ∧ DInv c' l' := by
    obtain ⟨c', e, hi⟩ := restE_ok (src := src) hp ha h
    exact ⟨did, c', l, (M.bind_ok e).trans rfl, hi⟩
  rw [inAnswerE_eq]
  unfold ansW
  rw [M.bind_ok (rFirst_ok h.rinv _ _)]
  cases hm : (c.matching a.name a.type).head? with
  | none => exact hn
  | some r =>
    have : r ∈ c.matching a.name a.type := List.mem_of_head? hm
    obtain ⟨x, hx, _⟩ := isRec_name (List.mem_filter.mp this).2
    dsimp only
    rw [M.bind_ok (getRec_ok hx)]
    by_cases hu : x.unique ≠ 0 ∧ x.modified = true ∧ aMatch a x.rr = true
    · rw [if_pos hu]
      exact hk r x hx hu.1
    · rw [if_neg hu]
      exact hn

theorem inAnswersE_ok {env : Env} {p : Prog} (hp : p.Polite) {src : Addr} :
    ∀ (as : List Resource) (did : Bool) {c : Core} {l : Lists}, (∀ a ∈ as, a.WF) → DInv c l →
      ∃ c' l', inAnswersE env p src as did ⟨c, l⟩ = .ok ((), ⟨c', l'⟩) ∧ DInv c' l'
  | [], _, c, l, _, h => ⟨c, l, rfl, h⟩
  | a :: as, did, c, l, ha, h => by
    obtain ⟨did', c1, l1, e1, h1⟩ := inAnswerE_ok (env := env) (src := src) hp (ha a (by simp)) (did := did) h
    obtain ⟨c', l', e, h2⟩ := inAnswersE_ok hp as did' (fun a m => ha a (by simp [m])) h1
    refine ⟨c', l', ?_, h2⟩
    unfold inAnswersE
    rw [M.bind_ok e1]
    exact e

theorem inMsgE_ok {env : Env} {p : Prog} (hp : p.Polite) {now : TV} {m : Msg} {src : Addr}
    (hw : ∀ a ∈ m.an, a.WF) {c : Core} {l : Lists} (h : DInv c l) :
    ∃ ret c' l', inMsgE env p now m src ⟨c, l⟩ = .ok (ret, ⟨c', l'⟩) ∧ DInv c' l' := by
  unfold inMsgE
  rw [M.bind_ok core_ok]
  cases hs : c.shutdown with
  | true => exact ⟨1, c, l, rfl, h⟩
  | false =>
    rw [if_neg (by simp), M.bind_ok modC_ok]
    have h0 := h.atNow now
    obtain ⟨b, c1, e1, hl, _⟩ := isLocal_ok env src { c with now := now } l
    have h1 : DInv c1 l := ⟨hl.cinv h0.cinv, hl.rinv h0.rinv⟩
    rw [M.bind_ok e1]
    cases b with
    | true => exact ⟨0, c1, l, rfl, h1⟩
    | false =>
      cases hq : m.header.qr with
      | false =>
        obtain ⟨c', l', e, n⟩ := inQuestions_ok (env := env) (m := m) (src := src) m.qd false h1
        exact ⟨0, c', l', (M.bind_ok e).trans rfl, n.inv h1⟩
      | true =>
        obtain ⟨c', l', e, n⟩ := inAnswersE_ok (env := env) (src := src) hp m.an false hw h1
        exact ⟨0, c', l', (M.bind_ok e).trans rfl, n⟩

namespace Sim

theorem inAnswerE (env : Env) (p : Prog) (src : Addr) (a : Resource) (did : Bool) :
    Sim (Mdns.inAnswerE env p src a did) (Mdns.inAnswerE env p src a did) := by
  have hr : Sim (inAnswerE.rest p src a) (inAnswerE.rest p src a) := by
    unfold inAnswerE.rest
    sim
  have hk : ∀ bad, Sim (ansK env src (inAnswerE.rest p src a) did bad) (ansK env src (inAnswerE.rest p src a) did bad) := by
    intro bad
    cases bad with
    | none => exact bind hr fun _ => pure _
    | some r =>
      unfold ansK
      sim
  rw [inAnswerE_eq, inAnswerE_eq]
  unfold ansW
  refine bind (rFirst _ _) fun r => ?_
  cases r with
  | none => exact bind (pure _) hk
  | some r => exact bind (getRec _) fun _ => bind (pure _) hk
macro_rules | `(tactic| sim1) => `(tactic| with_reducible apply Sim.inAnswerE)

theorem inAnswersE (env : Env) (p : Prog) (src : Addr) : ∀ as did, Sim (Mdns.inAnswersE env p src as did) (Mdns.inAnswersE env p src as did)
  | [], _ => pure _
  | a :: as, did => by
    unfold Mdns.inAnswersE
    exact bind (inAnswerE _ _ _ _ _) fun did => inAnswersE env p src as did
macro_rules | `(tactic| sim1) => `(tactic| with_reducible apply Sim.inAnswersE)

theorem inMsgE (env : Env) (p : Prog) (now : TV) (m : Msg) (src : Addr) :
    Sim (Mdns.inMsgE env p now m src) (Mdns.inMsgE env p now m src) := by
  unfold Mdns.inMsgE
  sim

end Sim

/-! ### What callbacks do does not matter to the cache -/

/-- The same but for queries and callbacks. -/
def Core.SameC (c c' : Core) : Prop := c.rest = c'.rest ∧ c.rrs = c'.rrs

theorem Core.SameC.refl (c : Core) : c.SameC c := ⟨rfl, rfl⟩
theorem Core.SameC.symm {a b : Core} (h : a.SameC b) : b.SameC a := ⟨h.1.symm, h.2.symm⟩
theorem Core.SameC.trans {a b c : Core} (h : a.SameC b) (h' : b.SameC c) : a.SameC c := ⟨h.1.trans h'.1, h.2.trans h'.2⟩

namespace Core

theorem rrs_map {c c' : Core} {i : Nat} {f : Cached → Cached} (hf : ∀ e, (f e).rr = e.rr)
    (h : c'.cache = upd c.cache i ((c.cache i).map f)) : c'.rrs = c.rrs := by
  funext j
  unfold Core.rrs
  rw [h]
  simp only [upd]
  split
  · rename_i hj
    subst hj
    simp only [List.map_map]
    exact List.map_congr_left fun e _ => hf e
  · rfl

theorem assoc_same (c : Core) (host : Bytes) (type : Nat) (q : Option Nat) : (c.assoc host type q).SameC c := by
  refine ⟨rfl, rrs_map (i := bucket host lprime) (f := fun e => if e.rr.is host type then { e with q := q } else e) ?_ rfl⟩
  intro e
  split <;> rfl

theorem qReset_same {c c' : Core} {q : Nat} (e : c.qReset q = .ok c') : c'.SameC c := by
  unfold Core.qReset at e
  split at e
  · cases e
  · cases e; exact ⟨rfl, rfl⟩

theorem qDone_same {c c' : Core} {q : Nat} (e : c.qDone q = .ok c') : c'.SameC c := by
  unfold Core.qDone at e
  split at e
  · cases e
  · dsimp only at e
    split at e
    · cases e
      rename_i x _ _
      obtain ⟨h1, h2⟩ := assoc_same c x.name x.type none
      exact ⟨h1, h2⟩
    · cases e

theorem query_same {c c' : Core} {h : Bytes} {t : Nat} {a : Option Nat} (e : c.query h t a = .ok c') : c'.SameC c := by
  unfold Core.query at e
  split at e
  · split at e
    · exact qDone_same e
    · split at e
      · cases e
      · cases e; exact ⟨rfl, rfl⟩
  · split at e
    · cases e; exact ⟨rfl, rfl⟩
    · dsimp only at e
      split at e
      · rename_i c1 h1
        have h2 := (qReset_same h1).trans (assoc_same _ _ _ _)
        split at e
        · cases e
        · cases e; exact ⟨h2.1, h2.2⟩
      · cases e
      · cases e
  · cases e
  · cases e

theorem calls_same : ∀ (l : List (Bytes × Nat × Option Nat)) {c c' : Core}, c.calls l = .ok c' → c'.SameC c
  | [], c, c', e => by cases e; exact .refl c
  | (host, type, cb) :: rest, c, c', e => by
    unfold Core.calls at e
    split at e
    · rename_i c1 h1
      exact (calls_same rest e).trans (query_same h1)
    · cases e
    · cases e

theorem callAnswerE_same {p : Prog} {c c' : Core} {q : Nat} {rr : Answer} {b : Bool} (e : c.callAnswerE p q rr = .ok (b, c')) :
    c'.SameC c := by
  unfold Core.callAnswerE at e
  split at e
  · cases e
  · dsimp only at e
    split at e
    · rename_i c1 h1
      cases e
      have := calls_same _ h1
      exact ⟨this.1, this.2⟩
    · cases e
    · cases e

theorem qAnswerE_same {p : Prog} {c c' : Core} {x : Cached} (e : c.qAnswerE p x = .ok c') : c'.SameC c := by
  unfold Core.qAnswerE at e
  split at e
  · cases e; exact .refl _
  · split at e
    · rename_i stop c1 h1
      have := callAnswerE_same h1
      split at e
      · exact (qDone_same e).trans this
      · cases e; exact this
    · cases e
    · cases e

/-- A chain replaced. -/
theorem SameC.upd {c c' : Core} (h : c.SameC c') (i : Nat) {l l' : List Cached} (hl : l.map (·.rr) = l'.map (·.rr)) :
    ({ c with cache := Mdns.upd c.cache i l } : Core).SameC { c' with cache := Mdns.upd c'.cache i l' } := by
  refine ⟨h.1, ?_⟩
  funext j
  have := congrFun h.2 j
  unfold Core.rrs at this ⊢
  simp only [Mdns.upd]
  split
  · exact hl
  · exact this

theorem SameC.rr {c c' : Core} (h : c.SameC c') (i : Nat) : (c.cache i).map (·.rr) = (c'.cache i).map (·.rr) := congrFun h.2 i

theorem SameC.now {c c' : Core} (h : c.SameC c') : c.now = c'.now := (congrArg Core.now h.1 : c.rest.now = c'.rest.now)
theorem SameC.cls {c c' : Core} (h : c.SameC c') : c.cls = c'.cls := (congrArg Core.cls h.1 : c.rest.cls = c'.rest.cls)

theorem cExpireFE_same {p p' : Prog} {i : Nat} : ∀ (n k : Nat) {a b a' b' : Core}, a.SameC b →
    cExpireFE p i n k a = .ok a' → cExpireFE p' i n k b = .ok b' → a'.SameC b'
  | 0, _, _, _, _, _, _, e, _ => by cases e
  | n + 1, k, a, b, a', b', h, e, e' => by
    unfold Core.cExpireFE at e e'
    have hk : ((a.cache i)[k]?).map (·.rr) = ((b.cache i)[k]?).map (·.rr) := by
      rw [← List.getElem?_map, ← List.getElem?_map, h.rr i]
    cases ha : (a.cache i)[k]? with
    | none =>
      cases hb : (b.cache i)[k]? with
      | none =>
        rw [ha] at e
        rw [hb] at e'
        cases e
        cases e'
        exact h
      | some y => rw [ha, hb] at hk; simp at hk
    | some x =>
      cases hb : (b.cache i)[k]? with
      | none => rw [ha, hb] at hk; simp at hk
      | some y =>
        rw [ha, hb] at hk
        simp only [Option.map_some, Option.some.injEq] at hk
        rw [ha] at e
        rw [hb] at e'
        simp only at e e'
        by_cases hexp : a.now.sec ≥ x.rr.ttl
        · rw [if_pos hexp] at e
          rw [if_pos (by rw [← hk, ← h.now]; exact hexp)] at e'
          have hu := h.upd i (l := (a.cache i).eraseIdx k) (l' := (b.cache i).eraseIdx k) (by
            rw [map_eraseIdx, map_eraseIdx, h.rr i])
          split at e
          · rename_i a1 h1
            split at e'
            · rename_i b1 h2
              exact cExpireFE_same n k (((qAnswerE_same h1).trans hu).trans (qAnswerE_same h2).symm) e e'
            · cases e'
            · cases e'
          · cases e
          · cases e
        · rw [if_neg hexp] at e
          rw [if_neg (by rw [← hk, ← h.now]; exact hexp)] at e'
          exact cExpireFE_same n (k + 1) h e e'

theorem cExpireE_same {p p' : Prog} {i : Nat} {a b a' b' : Core} (h : a.SameC b)
    (e : a.cExpireE p i = .ok a') (e' : b.cExpireE p' i = .ok b') : a'.SameC b' := by
  unfold Core.cExpireE at e e'
  have : (b.cache i).length = (a.cache i).length := by
    have := congrArg List.length (h.rr i)
    simpa using this.symm
  rw [this] at e'
  exact cExpireFE_same _ _ h e e'

theorem flushE_same {p p' : Prog} {r : Resource} {a b a' b' : Core} (h : a.SameC b)
    (e : a.flushE p r = .ok a') (e' : b.flushE p' r = .ok b') : a'.SameC b' := by
  unfold Core.flushE at e e'
  by_cases hc : r.cls = 32768 + a.cls
  · rw [if_pos hc] at e
    rw [if_pos (by rw [← h.cls]; exact hc)] at e'
    refine cExpireE_same (h.upd _ ?_) e e'
    have := h.rr (bucket r.name lprime)
    have hz : ∀ l : List Cached, (l.map fun e => if e.rr.is r.name r.type then { e with rr := { e.rr with ttl := 0 } } else e).map (·.rr) =
        (l.map (·.rr)).map fun a => if a.is r.name r.type then { a with ttl := 0 } else a := by
      intro l
      rw [List.map_map, List.map_map]
      refine List.map_congr_left fun e _ => ?_
      simp only [Function.comp]
      split <;> rfl
    unfold Core.chain
    rw [hz, hz, this]
  · rw [if_neg hc] at e
    rw [if_neg (by rw [← h.cls]; exact hc)] at e'
    cases e
    cases e'
    exact h

theorem map_modify_rr (f : Answer → Answer) : ∀ (l : List Cached) (k : Nat),
    (l.modify k fun e => { e with rr := f e.rr }).map (·.rr) = (l.map (·.rr)).modify k f
  | [], k => by simp
  | e :: l, 0 => by simp
  | e :: l, k + 1 => by simp [map_modify_rr f l k]

theorem SameC.mod {c c' : Core} (h : c.SameC c') (i k : Nat) (f : Answer → Answer) :
    (c.modEntry i k fun e => { e with rr := f e.rr }).SameC (c'.modEntry i k fun e => { e with rr := f e.rr }) := by
  refine h.upd i ?_
  rw [map_modify_rr, map_modify_rr, h.rr i]

theorem SameC.find {c c' : Core} (h : c.SameC c') (i : Nat) (f : Answer → Bool) :
    (c.cache i).findIdx? (fun e => f e.rr) = (c'.cache i).findIdx? (fun e => f e.rr) := by
  have hg : ∀ l : List Cached, l.findIdx? (fun e => f e.rr) = (l.map (·.rr)).findIdx? f := by
    intro l
    induction l with
    | nil => rfl
    | cons a l ih => simp only [List.map_cons, List.findIdx?_cons, ih]
  rw [hg, hg, h.rr i]

theorem deleteFE_same {p p' : Prog} {r : Resource} {i : Nat} : ∀ (n : Nat) {a b a' b' : Core}, a.SameC b →
    deleteFE p r i n a = .ok a' → deleteFE p' r i n b = .ok b' → a'.SameC b'
  | 0, _, _, _, _, _, e, _ => by cases e
  | n + 1, a, b, a', b', h, e, e' => by
    unfold Core.deleteFE at e e'
    have hk := h.find i fun x => x.is r.name r.type && aMatch r x
    rw [← hk] at e'
    split at e
    · rename_i hf
      rw [hf] at e'
      cases e
      cases e'
      exact h
    · rename_i k hf
      rw [hf] at e'
      dsimp only at e'
      split at e
      · rename_i a1 h1
        split at e'
        · rename_i b1 h2
          exact deleteFE_same n (cExpireE_same (h.mod i k fun x => { x with ttl := 0 }) h1 h2) e e'
        · cases e'
        · cases e'
      · cases e
      · cases e

/-- The entry is there whatever the callback does. -/
theorem insertE_same {p p' : Prog} {r : Resource} {src : Addr} {a b a' b' : Core} (h : a.SameC b)
    (e : a.insertE p r src = .ok a') (e' : b.insertE p' r src = .ok b') : a'.SameC b' := by
  have key : ∀ (p : Prog) (a a' : Core), a.insertE p r src = .ok a' →
      match (a.cache (bucket r.name lprime)).findIdx? (fun e => e.rr.is r.name r.type && aMatch r e.rr) with
      | some k => a' = a.modEntry (bucket r.name lprime) k fun e => { e with rr := { e.rr with ttl := a.now.sec + r.ttl / 2 + 8 } }
      | none => ∃ q, a'.SameC (a.setChain (bucket r.name lprime)
          ({ rr := newEntry r src (a.now.sec + r.ttl / 2 + 8), q := q } :: a.cache (bucket r.name lprime))) := by
    intro p a a' e
    unfold Core.insertE at e
    dsimp only at e
    split at e
    · rename_i k hf
      rw [hf]
      cases e
      rfl
    · rename_i hf
      rw [hf]
      dsimp only
      split at e
      · rename_i q _
        refine ⟨q, ?_⟩
        split at e
        · cases e; exact .refl _
        · split at e
          · rename_i stop c1 h1
            have := callAnswerE_same h1
            split at e
            · split at e
              · exact (qDone_same e).trans this
              · cases e
            · cases e; exact this
          · cases e
          · cases e
      · cases e
      · cases e
  have h1 := key p a a' e
  have h2 := key p' b b' e'
  rw [← h.find (bucket r.name lprime) fun x => x.is r.name r.type && aMatch r x, ← h.now] at h2
  split at h1
  · rename_i k hf
    rw [hf] at h2
    dsimp only at h2
    rw [h1, h2]
    exact h.mod _ k fun x => { x with ttl := a.now.sec + r.ttl / 2 + 8 }
  · rename_i hf
    rw [hf] at h2
    dsimp only at h2
    obtain ⟨q, h1⟩ := h1
    obtain ⟨q', h2⟩ := h2
    refine (h1.trans (h.upd _ ?_)).trans h2.symm
    rw [List.map_cons, List.map_cons, h.rr]

theorem cacheInE_same {p p' : Prog} {r : Resource} {src : Addr} {a b a' b' : Core} (h : a.SameC b)
    (e : a.cacheInE p r src = .ok a') (e' : b.cacheInE p' r src = .ok b') : a'.SameC b' := by
  unfold Core.cacheInE at e e'
  split at e
  · rename_i a1 h1
    split at e'
    · rename_i b1 h2
      have hs := flushE_same h h1 h2
      split at e
      · rename_i ht
        rw [if_pos ht] at e'
        have : (b1.chain r.name).length = (a1.chain r.name).length := by
          have := congrArg List.length (hs.rr (bucket r.name lprime))
          unfold Core.chain
          simpa using this.symm
        rw [this] at e'
        exact deleteFE_same _ hs e e'
      · rename_i ht
        rw [if_neg ht] at e'
        exact insertE_same hs e e'
    · cases e'
    · cases e'
  · cases e
  · cases e

end Core

/-- Two runs that end in the same result, and in states the same but for queries and callbacks, if they began so. -/
def Alike {α : Type} (x y : M Q α) : Prop :=
  ∀ c c' q a b d d', Core.SameC c c' → x ⟨c, q⟩ = .ok (a, d) → y ⟨c', q⟩ = .ok (b, d') → a = b ∧ d.c.SameC d'.c ∧ d.q = d'.q

namespace Alike

variable {α β : Type}

theorem bind {x y : M Q α} {f g : α → M Q β} (h : Alike x y) (hf : ∀ a, Alike (f a) (g a)) : Alike (x >>= f) (y >>= g) := by
  intro c c' q a b d d' hc e e'
  cases hx : x ⟨c, q⟩ with
  | ub => rw [M.bind_ub hx] at e; cases e
  | hang => rw [M.bind_hang hx] at e; cases e
  | ok ad =>
    cases hy : y ⟨c', q⟩ with
    | ub => rw [M.bind_ub hy] at e'; cases e'
    | hang => rw [M.bind_hang hy] at e'; cases e'
    | ok bd =>
      obtain ⟨a1, c1, q1⟩ := ad
      obtain ⟨b1, c2, q2⟩ := bd
      rw [M.bind_ok hx] at e
      rw [M.bind_ok hy] at e'
      obtain ⟨rfl, h2, h3⟩ := h _ _ _ _ _ _ _ hc hx hy
      simp only at h3
      subst h3
      exact hf _ _ _ _ _ _ _ _ h2 e e'

theorem pure (a : α) : Alike (Pure.pure a : M Q α) (Pure.pure a) := by
  intro c c' q a b d d' hc e e'
  cases e
  cases e'
  exact ⟨rfl, hc, rfl⟩

theorem ub (y : M Q α) : Alike (M.ub : M Q α) y := by
  intro c c' q a b d d' hc e
  cases e

theorem core_bind {f g : Core → M Q β} (h : ∀ c c', Core.SameC c c' → Alike (f c) (g c')) : Alike (M.core >>= f) (M.core >>= g) := by
  intro c c' q a b d d' hc e e'
  exact h c c' hc c c' q a b d d' hc e e'

theorem modC {f g : Core → Core} (h : ∀ c c', Core.SameC c c' → (f c).SameC (g c')) : Alike (M.modC f : M Q Unit) (M.modC g) := by
  intro c c' q a b d d' hc e e'
  cases e
  cases e'
  exact ⟨rfl, h _ _ hc, rfl⟩

theorem liftQ {f : Q → Res (α × Q)} : Alike (M.liftQ f : M Q α) (M.liftQ f) := by
  intro c c' q a b d d' hc e e'
  unfold M.liftQ at e e'
  dsimp only at e e'
  split at e
  · rename_i hf
    rw [hf] at e'
    cases e
    cases e'
    exact ⟨rfl, hc, rfl⟩
  · cases e
  · cases e

theorem recs {c c' : Core} (h : c.SameC c') : c.recs = c'.recs := (congrArg Core.recs h.1 : c.rest.recs = c'.rest.recs)

theorem getRec (r : Nat) : Alike (M.getRec r : M Q Rec) (M.getRec r) := by
  intro c c' q a b d d' hc e e'
  unfold M.getRec at e e'
  dsimp only at e e'
  rw [← recs hc] at e'
  split at e
  · rename_i hr
    rw [hr] at e'
    cases e
    cases e'
    exact ⟨rfl, hc, rfl⟩
  · cases e

/-- A change to what is the same. -/
theorem same {f : Core → Core} (hf : ∀ c, (f c).rest = (f c.rest).rest) (hr : ∀ c, (f c).rrs = c.rrs) (c c' : Core) (h : c.SameC c') :
    (f c).SameC (f c') := ⟨by rw [hf, hf c', h.1], by rw [hr, hr, h.2]⟩

theorem modRec (r : Nat) (f : Rec → Rec) : Alike (M.modRec r f : M Q Unit) (M.modRec r f) := by
  intro c c' q a b d d' hc e e'
  unfold M.modRec at e e'
  dsimp only at e e'
  rw [← recs hc] at e'
  cases hr : c.recs r with
  | none => rw [hr] at e; cases e
  | some x =>
    rw [hr] at e e'
    cases e
    cases e'
    exact ⟨rfl, ⟨congrArg (fun z : Core => { z with recs := upd c.recs r (some (f x)) }) hc.1, hc.2⟩, rfl⟩

theorem ite {c : Prop} [Decidable c] {x x' y y' : M Q α} (h : Alike x x') (h' : Alike y y') :
    Alike (if c then x else y) (if c then x' else y') := by
  split
  · exact h
  · exact h'

theorem rSend (r : Nat) : Alike (Mdns.rSend r : M Q Unit) (Mdns.rSend r) := by
  unfold Mdns.rSend
  refine bind (getRec r) fun x => ite (modC (same (fun _ => rfl) fun _ => rfl)) (ite (bind liftQ fun _ => liftQ) ?_)
  exact bind (modC (same (fun _ => rfl) fun _ => rfl)) fun _ => bind liftQ fun _ => liftQ

theorem rDone (r : Nat) : Alike (Mdns.rDone r : M Q Unit) (Mdns.rDone r) := by
  unfold Mdns.rDone Mdns.uRemove Mdns.freeRec
  exact bind (getRec r) fun x => bind (modC (same (fun _ => rfl) fun _ => rfl)) fun _ => bind (modC (same (fun _ => rfl) fun _ => rfl)) fun _ =>
    bind (getRec r) fun _ => bind (modC (same (fun _ => rfl) fun _ => rfl)) fun _ => liftQ

theorem done (r : Nat) : Alike (Mdns.done r : M Q Unit) (Mdns.done r) := by
  unfold Mdns.done
  exact bind (getRec r) fun x => ite (bind liftQ fun _ => rDone r) (bind (modRec _ _) fun _ => rSend r)

theorem conflict (r : Nat) : Alike (Mdns.conflict r : M Q Unit) (Mdns.conflict r) := by
  unfold Mdns.conflict
  refine bind (getRec r) fun x => ?_
  cases x.conflict with
  | none => exact ub _
  | some _ => exact bind (modC (same (fun _ => rfl) fun _ => rfl)) fun _ => done r

theorem rScan (host : Bytes) (type : Nat) : ∀ l, Alike (Mdns.rScan host type l : M Q (Option Nat)) (Mdns.rScan host type l)
  | [] => pure _
  | r :: rest => by
    unfold Mdns.rScan
    exact bind (getRec r) fun x => ite (pure _) (rScan host type rest)

theorem rFirst (host : Bytes) (type : Nat) : Alike (Mdns.rFirst host type : M Q (Option Nat)) (Mdns.rFirst host type) := by
  unfold Mdns.rFirst
  refine core_bind fun c c' h => ?_
  have : c.published = c'.published := (congrArg Core.published h.1 : c.rest.published = c'.rest.published)
  rw [this]
  exact rScan _ _ _

theorem refreshLocals (env : Env) (b : Bool) (c c' : Core) (h : c.SameC c') :
    (Mdns.refreshLocals env b c).SameC (Mdns.refreshLocals env b c') := by
  refine same (fun c => ?_) (fun c => ?_) c c' h
  · unfold Mdns.refreshLocals
    have h1 : c.rest.refreshed = c.refreshed := rfl
    have h2 : c.rest.now = c.now := rfl
    have h3 : c.rest.nifs = c.nifs := rfl
    rw [h1, h2, h3]
    split
    · rfl
    · split <;> rfl
  · unfold Mdns.refreshLocals
    split
    · rfl
    · split <;> rfl

theorem isLocal (env : Env) (src : Addr) : Alike (Mdns.isLocal env src : M Q Bool) (Mdns.isLocal env src) := by
  unfold Mdns.isLocal
  refine core_bind fun c c' h => ?_
  have h1 : c.addr = c'.addr := (congrArg Core.addr h.1 : c.rest.addr = c'.rest.addr)
  have h2 : c.addr6 = c'.addr6 := (congrArg Core.addr6 h.1 : c.rest.addr6 = c'.rest.addr6)
  rw [h1, h2]
  refine ite (pure _) (bind (modC (refreshLocals env false)) fun _ => core_bind fun d d' h => ?_)
  have h3 : d.locals = d'.locals := (congrArg Core.locals h.1 : d.rest.locals = d'.rest.locals)
  rw [h3]
  exact pure _

theorem rest (p p' : Prog) (src : Addr) (a : Resource) : Alike (inAnswerE.rest p src a : M Q Unit) (inAnswerE.rest p' src a) := by
  unfold inAnswerE.rest
  refine bind (modC fun c c' h => ?_) fun _ => ?_
  · have h1 : c.recvCb = c'.recvCb := (congrArg Core.recvCb h.1 : c.rest.recvCb = c'.rest.recvCb)
    by_cases hb : c.recvCb = true
    · rw [if_pos hb, if_pos (by rw [← h1]; exact hb)]
      exact ⟨h.1, h.2⟩
    · rw [if_neg hb, if_neg (by rw [← h1]; exact hb)]
      exact h
  · intro c c' q x y d d' hc e e'
    unfold M.liftC at e e'
    dsimp only at e e'
    cases h1 : c.cacheInE p a src with
    | ub => rw [h1] at e; cases e
    | hang => rw [h1] at e; cases e
    | ok c1 =>
      cases h2 : c'.cacheInE p' a src with
      | ub => rw [h2] at e'; cases e'
      | hang => rw [h2] at e'; cases e'
      | ok c2 =>
        rw [h1] at e
        rw [h2] at e'
        cases e
        cases e'
        exact ⟨rfl, Core.cacheInE_same hc h1 h2, rfl⟩

theorem ansW {env : Env} {src : Addr} {a : Resource} {rest rest' : M Q Unit} (h : Alike rest rest') (did : Bool) :
    Alike (Mdns.ansW env src a rest did) (Mdns.ansW env src a rest' did) := by
  have hk : ∀ bad, Alike (ansK env src rest did bad) (ansK env src rest' did bad) := by
    intro bad
    cases bad with
    | none => exact bind h fun _ => pure _
    | some r =>
      unfold ansK
      have h1 : Alike (do if ← Mdns.isLocal env src then Pure.pure true else do
            Mdns.conflict r
            rest
            Pure.pure true : M Q Bool) (do if ← Mdns.isLocal env src then Pure.pure true else do
            Mdns.conflict r
            rest'
            Pure.pure true) :=
        bind (isLocal env src) fun _ => ite (pure _) (bind (conflict r) fun _ => bind h fun _ => pure _)
      exact ite (bind (modC (refreshLocals env true)) fun _ => h1) h1
  unfold Mdns.ansW
  refine bind (rFirst _ _) fun r => ?_
  cases r with
  | none => exact bind (pure _) hk
  | some r => exact bind (getRec r) fun _ => bind (pure _) hk

theorem inAnswersE (env : Env) (p p' : Prog) (src : Addr) : ∀ as did,
    Alike (Mdns.inAnswersE env p src as did : M Q Unit) (Mdns.inAnswersE env p' src as did)
  | [], _ => pure _
  | a :: as, did => by
    unfold Mdns.inAnswersE
    refine bind ?_ fun did => inAnswersE env p p' src as did
    rw [inAnswerE_eq, inAnswerE_eq]
    exact ansW (rest p p' src a) did

theorem inMsgE (env : Env) (p p' : Prog) (now : TV) (m : Msg) (src : Addr) :
    ∀ (d d1 d2 : D Q) (a b : Nat), Mdns.inMsgE env p now m src d = .ok (a, d1) → Mdns.inMsgE env p' now m src d = .ok (b, d2) →
      a = b ∧ d1.c.SameC d2.c ∧ d1.q = d2.q := by
  intro d d1 d2 a b e e'
  have hc : (M.core : M Q Core) d = .ok (d.c, d) := rfl
  cases hq : m.header.qr with
  | false =>
    have : (Mdns.inMsgE env p now m src : M Q Nat) = Mdns.inMsgE env p' now m src := by
      unfold Mdns.inMsgE
      simp only [hq, Bool.not_false, if_true]
    rw [this, e'] at e
    cases e
    exact ⟨rfl, .refl _, rfl⟩
  | true =>
  unfold Mdns.inMsgE at e e'
  rw [M.bind_ok hc] at e e'
  cases hs : d.c.shutdown with
  | true =>
    rw [hs, if_pos rfl] at e e'
    cases e
    cases e'
    exact ⟨rfl, .refl _, rfl⟩
  | false =>
    rw [hs, if_neg (by simp)] at e e'
    refine bind (modC (f := fun c => { c with now := now }) (g := fun c => { c with now := now }) (same (fun _ => rfl) fun _ => rfl)) (fun _ => ?_) d.c d.c d.q a b d1 d2 (.refl _) e e'
    refine bind (isLocal env src) fun l => ite (pure _) ?_
    rw [hq]
    exact bind (inAnswersE env p p' src m.an false) fun _ => pure _

end Alike

/-- C105: what is cached and published, and what is queued to be sent, after receiving a packet does not depend on what callbacks do. -/
theorem C105_cached {env : Env} {p p' : Prog} {now : TV} {m : Msg} {src : Addr} {d d1 d2 : D Q} {a b : Nat}
    (e : inMsgE env p now m src d = .ok (a, d1)) (e' : inMsgE env p' now m src d = .ok (b, d2)) :
    a = b ∧ (∀ host type, d1.c.listed host type = d2.c.listed host type) ∧ d1.c.published = d2.c.published ∧ d1.c.recs = d2.c.recs ∧
      d1.c.uanswers = d2.c.uanswers ∧ d1.q = d2.q := by
  obtain ⟨h1, h2, h3⟩ := Alike.inMsgE env p p' now m src d d1 d2 a b e e'
  refine ⟨h1, fun host type => ?_, ?_, Alike.recs h2, ?_, h3⟩
  · rw [listed_eq, listed_eq, h2.2]
  · exact (congrArg Core.published h2.1 : d1.c.rest.published = d2.c.rest.published)
  · exact (congrArg Core.uanswers h2.1 : d1.c.rest.uanswers = d2.c.rest.uanswers)

end Mdns
