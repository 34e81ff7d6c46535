import Verif.Model.Cache
import Verif.Spec.Daemon
import Verif.Props.Hash

/-!
# Invariant of cache and queries
-/

namespace Mdns

theorem lprime_pos : 0 < lprime := by decide
theorem sprime_pos : 0 < sprime := by decide

namespace Core

/-- The records in a cache chain. -/
def rrs (c : Core) (i : Nat) : List Answer := (c.cache i).map (·.rr)

/-- Everything but cache, queries and history. -/
def rest (c : Core) : Core :=
  { c with
    cache := fun _ => [], qs := fun _ => none, nextq := 0, queries := fun _ => [], qlist := [],
    checkqlist := 0, log := [] }

end Core

/-- The invariant of cache and queries. -/
structure CInv (c : Core) : Prop where
  qmem : ∀ i q, q ∈ c.queries i → ∃ x, c.qs q = some x ∧ bucket x.name sprime = i
  qlive : ∀ q x, c.qs q = some x → q ∈ c.queries (bucket x.name sprime) ∧ q ∈ c.qlist
  qlist : ∀ q ∈ c.qlist, ∃ x, c.qs q = some x
  qnodup : ∀ i, (c.queries i).Nodup
  lnodup : c.qlist.Nodup
  quniq : ∀ q q' x x', c.qs q = some x → c.qs q' = some x' → x.name = x'.name → x.type = x'.type → q = q'
  qbound : ∀ q x, c.qs q = some x → q < c.nextq
  cbucket : ∀ i e, e ∈ c.cache i → bucket e.rr.name lprime = i
  cq : ∀ i e q, e ∈ c.cache i → e.q = some q →
    ∃ x, c.qs q = some x ∧ x.name = e.rr.name ∧ typeFits x.type e.rr
  cuniq : ∀ i, (c.cache i).Pairwise fun a b => ¬ SameRec a.rr b.rr
  tcb : ∀ host type cb, callback c.log host type = some cb ↔
    ∃ q x, c.qs q = some x ∧ x.name = host ∧ x.type = type ∧ x.cb = cb
  tlog : LogOk c.log

/-- What running callbacks and changing queries leaves alone. -/
structure QStep (c c' : Core) : Prop where
  inv : CInv c'
  rrs : ∀ i, c'.rrs i = c.rrs i
  rest : c'.rest = c.rest

theorem QStep.now {c c' : Core} (h : QStep c c') : c'.now = c.now := (congrArg Core.now h.rest : c'.rest.now = c.rest.now)

theorem QStep.trans {a b c : Core} (h : QStep a b) (h' : QStep b c) : QStep a c :=
  ⟨h'.inv, fun i => (h'.rrs i).trans (h.rrs i), h'.rest.trans h.rest⟩

theorem QStep.refl {c : Core} (h : CInv c) : QStep c c := ⟨h, fun _ => rfl, rfl⟩

/-! ### Histories -/

theorem callback_append_registered (t : List Event) (h host : Bytes) (ty type cb : Nat) :
    callback (t ++ [.registered h ty cb]) host type =
      if h = host ∧ ty = type then some cb else callback t host type := by
  simp [callback]

theorem callback_append_unregistered (t : List Event) (h host : Bytes) (ty type : Nat) :
    callback (t ++ [.unregistered h ty]) host type =
      if h = host ∧ ty = type then none else callback t host type := by
  simp [callback]

theorem callback_append_answer (t : List Event) (host : Bytes) (type q cb : Nat) (rr : Answer) :
    callback (t ++ [.answer q cb rr]) host type = callback t host type := by
  simp [callback]

theorem callback_append_received (t : List Event) (host : Bytes) (type : Nat) (r : Resource) :
    callback (t ++ [.received r]) host type = callback t host type := by
  simp [callback]

theorem callback_append_conflict (t : List Event) (host : Bytes) (type r ty : Nat) (n : Bytes) :
    callback (t ++ [.conflict r n ty]) host type = callback t host type := by
  simp [callback]

theorem LogOk.append {t : List Event} (h : LogOk t) {e : Event}
    (he : ∀ q cb rr, e = .answer q cb rr → ∃ type, typeFits type rr ∧ callback t rr.name type = some cb) :
    LogOk (t ++ [e]) := by
  intro t1 q cb rr s hs
  rcases List.eq_nil_or_concat s with rfl | ⟨s', e', rfl⟩
  · obtain ⟨rfl, h2⟩ := List.append_inj' hs rfl
    simp only [List.cons.injEq, and_true] at h2
    exact he _ _ _ h2
  · rw [List.concat_eq_append, ← List.cons_append, ← List.append_assoc] at hs
    obtain ⟨h1, _⟩ := List.append_inj' hs rfl
    exact h _ _ _ _ _ h1

/-! ### Matching -/

theorem is_iff (a : Answer) (host : Bytes) (type : Nat) :
    a.is host type = true ↔ a.name = host ∧ typeFits type a := by
  simp [Answer.is, typeFits, and_comm]

theorem newEntry_name (r : Resource) (src : Addr) (ttl : Nat) : (Core.newEntry r src ttl).name = r.name := by
  unfold Core.newEntry
  cases r.known <;> cases src.ip <;> rfl

theorem newEntry_type (r : Resource) (src : Addr) (ttl : Nat) : (Core.newEntry r src ttl).type = r.type := by
  unfold Core.newEntry
  cases r.known <;> cases src.ip <;> rfl

theorem newEntry_ttl (r : Resource) (src : Addr) (ttl : Nat) : (Core.newEntry r src ttl).ttl = ttl := by
  unfold Core.newEntry
  cases r.known <;> cases src.ip <;> rfl

theorem getD_none_or (l : Bytes) : (if l = [] then none else some l : Option Bytes).getD [] = l := by
  split <;> simp_all

/-- The comparison of `_a_match` is equality of name, type and data. -/
theorem aMatch_iff (r : Resource) (h : r.WF) (src : Addr) (ttl : Nat) (a : Answer) :
    aMatch r a = true ↔ SameRec (Core.newEntry r src ttl) a := by
  unfold SameRec
  rw [newEntry_name, newEntry_type]
  unfold aMatch sameData
  rw [newEntry_type]
  by_cases hn : r.name = a.name <;> by_cases ht : r.type = a.type <;> simp only [hn, ht, beq_self_eq_true,
    Bool.true_and, true_and, false_and, Bool.false_and, beq_eq_false_iff_ne.mpr, Bool.and_false, ne_eq, not_false_eq_true,
    Bool.false_eq_true]
  by_cases h1 : a.type = 1
  · obtain ⟨ip, hk⟩ := h.a (by rw [ht, h1])
    simp [h1, hk, Core.newEntry, isNameType]
  by_cases h28 : a.type = 28
  · obtain ⟨ip, hk⟩ := h.aaaa (by rw [ht, h28])
    simp [h28, hk, Core.newEntry, isNameType]
  by_cases h33 : a.type = 33
  · obtain ⟨p, w, o, n, hk⟩ := h.srv (by rw [ht, h33])
    simp only [h33, hk, Core.newEntry]
    simp only [if_true, Bool.and_eq_true, beq_iff_eq]
    constructor
    · rintro ⟨⟨⟨e1, e2⟩, e3⟩, e4⟩; exact ⟨e1.symm, e4.symm, e3.symm, e2.symm⟩
    · rintro ⟨e1, e2, e3, e4⟩; exact ⟨⟨⟨e1.symm, e4.symm⟩, e3.symm⟩, e2.symm⟩
  by_cases hnt : a.type = 2 ∨ a.type = 5 ∨ a.type = 12
  · obtain ⟨n, hk⟩ := h.name (by rw [ht]; exact hnt)
    have e2 : (Core.newEntry r src ttl).rdname = some n := by
      unfold Core.newEntry
      rw [hk]
      cases src.ip <;> rfl
    rcases hnt with hh | hh | hh <;> simp only [hh, hk, isNameType, e2] <;>
      exact ⟨fun e => (beq_iff_eq.mp e).symm, fun e => beq_iff_eq.mpr e.symm⟩
  · have hk := h.other (by rw [ht]; exact h1) (by rw [ht]; exact h28) (by rw [ht]; omega) (by rw [ht]; omega)
      (by rw [ht]; omega) (by rw [ht]; exact h33)
    have hnt' : isNameType a.type = false := by
      simp [isNameType]; omega
    have e2 : (Core.newEntry r src ttl).rdata.getD [] = r.rdata := by
      unfold Core.newEntry
      rw [hk]
      exact getD_none_or _
    simp only [h33, h1, h28, hnt', if_false, e2]
    split <;> simp_all

/-! ### Queries -/

namespace CInv

variable {c : Core}

theorem qFind_go (c : Core) (host : Bytes) (type : Nat) : ∀ l : List Nat,
    (∀ q ∈ l, ∃ x, c.qs q = some x) → ∃ o, Core.qFind.go c host type l = .ok o ∧
      (∀ q, o = some q → q ∈ l ∧ ∃ x, c.qs q = some x ∧ x.name = host ∧ x.type = type) ∧
      (o = none → ∀ q ∈ l, ∀ x, c.qs q = some x → ¬ (x.name = host ∧ x.type = type))
  | [], _ => ⟨none, rfl, by simp, by simp⟩
  | q :: rest, h => by
    obtain ⟨x, hx⟩ := h q (by simp)
    obtain ⟨o, h1, h2, h3⟩ := qFind_go c host type rest fun q' m => h q' (by simp [m])
    unfold Core.qFind.go
    rw [hx]
    by_cases hc : x.type = type ∧ x.name = host
    · simp only [hc, and_self, if_true]
      refine ⟨some q, rfl, ?_, by simp⟩
      rintro q' ⟨⟩
      exact ⟨by simp, x, hx, hc.2, hc.1⟩
    · simp only [hc, if_false]
      refine ⟨o, h1, fun q' e => ?_, fun e q' m x' hx' => ?_⟩
      · obtain ⟨m, r⟩ := h2 q' e
        exact ⟨by simp [m], r⟩
      · rcases List.mem_cons.mp m with rfl | m
        · rw [hx] at hx'
          cases hx'
          exact fun e => hc ⟨e.2, e.1⟩
        · exact h3 e q' m x' hx'

theorem qFind (h : CInv c) (host : Bytes) (type : Nat) : ∃ o, c.qFind host type = .ok o ∧
    (∀ q, o = some q → ∃ x, c.qs q = some x ∧ x.name = host ∧ x.type = type) ∧
    (o = none → ∀ q x, c.qs q = some x → ¬ (x.name = host ∧ x.type = type)) := by
  obtain ⟨o, h1, h2, h3⟩ := qFind_go c host type (c.queries (bucket host sprime))
    fun q m => by obtain ⟨x, hx, _⟩ := h.qmem _ _ m; exact ⟨x, hx⟩
  refine ⟨o, h1, fun q e => (h2 q e).2, fun e q x hx hc => ?_⟩
  have := (h.qlive q x hx).1
  rw [hc.1] at this
  exact h3 e q this x hx hc

end CInv

theorem assoc_mem {c : Core} {host : Bytes} {type : Nat} {q : Option Nat} {i : Nat} {e : Cached}
    (m : e ∈ (c.assoc host type q).cache i) : ∃ e' ∈ c.cache i, e.rr = e'.rr ∧
      (e.q = q ∧ e.rr.name = host ∧ typeFits type e.rr ∨
        e = e' ∧ (i = bucket host lprime → ¬ (e.rr.name = host ∧ typeFits type e.rr))) := by
  unfold Core.assoc Core.chain at m
  simp only [upd] at m
  split at m
  · rename_i hi
    obtain ⟨e', m', rfl⟩ := List.mem_map.mp m
    refine ⟨e', hi ▸ m', ?_⟩
    split
    · rename_i hc
      rw [is_iff] at hc
      exact ⟨rfl, .inl ⟨rfl, hc⟩⟩
    · rename_i hc
      rw [is_iff] at hc
      exact ⟨rfl, .inr ⟨rfl, fun _ => hc⟩⟩
  · rename_i hi
    exact ⟨e, m, rfl, .inr ⟨rfl, fun e => absurd e hi⟩⟩

theorem map_assoc (l : List Cached) (f : Cached → Bool) (q : Option Nat) :
    (l.map fun e => if f e then { e with q := q } else e).map (·.rr) = l.map (·.rr) := by
  rw [List.map_map]
  apply List.map_congr_left
  intro e _
  simp only [Function.comp]
  split <;> rfl

theorem assoc_rrs (c : Core) (host : Bytes) (type : Nat) (q : Option Nat) (i : Nat) :
    (c.assoc host type q).rrs i = c.rrs i := by
  unfold Core.assoc Core.rrs Core.chain
  simp only [upd]
  split
  · rename_i hi
    rw [map_assoc, hi]
  · rfl

/-- Properties of the records only depend on `rrs`. -/
theorem mem_rrs {c c' : Core} (h : ∀ i, c'.rrs i = c.rrs i) {i : Nat} {e : Cached} (m : e ∈ c'.cache i) :
    ∃ e' ∈ c.cache i, e'.rr = e.rr := by
  have : e.rr ∈ c'.rrs i := List.mem_map_of_mem m
  rw [h] at this
  obtain ⟨e', m', h'⟩ := List.mem_map.mp this
  exact ⟨e', m', h'⟩

theorem cuniq_of_rrs {c c' : Core} (h : ∀ i, c'.rrs i = c.rrs i)
    (hu : ∀ i, (c.cache i).Pairwise fun a b => ¬ SameRec a.rr b.rr) (i : Nat) :
    (c'.cache i).Pairwise fun a b => ¬ SameRec a.rr b.rr := by
  have h1 : (c.rrs i).Pairwise fun a b => ¬ SameRec a b := List.pairwise_map.mpr (hu i)
  rw [← h i] at h1
  exact List.pairwise_map.mp h1

theorem CInv.qDone {c : Core} (h : CInv c) {q : Nat} {x : Query} (hx : c.qs q = some x) :
    ∃ c', c.qDone q = .ok c' ∧ QStep c c' ∧ c'.qs = upd c.qs q none ∧
      c'.log = c.log ++ [.unregistered x.name x.type] ∧ c'.nextq = c.nextq ∧ c'.qlist = c.qlist.erase q ∧
      c'.checkqlist = c.checkqlist := by
  have hl := h.qlive q x hx
  unfold Core.qDone
  rw [hx]
  simp only [hl.1, hl.2, and_self, if_true]
  have hne : ∀ {q' : Nat} {x' : Query}, upd c.qs q none q' = some x' → q' ≠ q ∧ c.qs q' = some x' := by
    intro q' x' hx'
    unfold upd at hx'
    split at hx'
    · exact absurd hx' (by simp)
    · exact ⟨by assumption, hx'⟩
  refine ⟨_, rfl, ⟨?_, fun i => assoc_rrs c x.name x.type none i, rfl⟩, rfl, rfl, rfl, rfl, rfl⟩
  constructor
  · intro i q' m
    have m' : q' ∈ c.queries i ∧ q' ≠ q := by
      simp only [upd] at m
      split at m
      · rename_i hi
        have hm := (List.Nodup.mem_erase_iff (h.qnodup _)).mp m
        exact ⟨hi ▸ hm.2, hm.1⟩
      · rename_i hi
        refine ⟨m, ?_⟩
        rintro rfl
        obtain ⟨x', hx', hb⟩ := h.qmem _ _ m
        rw [hx] at hx'
        cases hx'
        exact hi hb.symm
    obtain ⟨x', hx', hb⟩ := h.qmem _ _ m'.1
    exact ⟨x', by simp only [upd, m'.2, if_false]; exact hx', hb⟩
  · intro q' x' hx'
    obtain ⟨hn, hx'⟩ := hne hx'
    obtain ⟨h1, h2⟩ := h.qlive q' x' hx'
    refine ⟨?_, (List.mem_erase_of_ne hn).mpr h2⟩
    simp only [upd]
    split
    · rename_i hi
      exact (List.mem_erase_of_ne hn).mpr (hi ▸ h1)
    · exact h1
  · intro q' m
    have hm := (List.Nodup.mem_erase_iff h.lnodup).mp m
    obtain ⟨x', hx'⟩ := h.qlist q' hm.2
    exact ⟨x', by simp only [upd, hm.1, if_false]; exact hx'⟩
  · intro i
    simp only [upd]
    split
    · exact (h.qnodup _).erase _
    · exact h.qnodup i
  · exact h.lnodup.erase _
  · intro q1 q2 x1 x2 h1 h2
    exact h.quniq q1 q2 x1 x2 (hne h1).2 (hne h2).2
  · intro q' x' hx'
    exact h.qbound q' x' (hne hx').2
  · intro i e m
    obtain ⟨e', m', he, _⟩ := assoc_mem m
    rw [he]
    exact h.cbucket i e' m'
  · intro i e q' m hq'
    obtain ⟨e', m', he, hh⟩ := assoc_mem m
    rcases hh with ⟨hn, _⟩ | ⟨rfl, hh⟩
    · rw [hn] at hq'
      exact absurd hq' (by simp)
    · obtain ⟨x', hx', e1, e2⟩ := h.cq i e q' m' hq'
      refine ⟨x', ?_, e1, e2⟩
      have : q' ≠ q := by
        rintro rfl
        rw [hx] at hx'
        cases hx'
        apply hh _ ⟨e1.symm, e2⟩
        rw [e1]
        exact (h.cbucket i e m').symm
      simp only [upd, this, if_false]
      exact hx'
  · exact cuniq_of_rrs (fun i => assoc_rrs c x.name x.type none i) h.cuniq
  · intro host type cb
    rw [callback_append_unregistered]
    constructor
    · intro hcb
      split at hcb
      · exact absurd hcb (by simp)
      · rename_i hn
        obtain ⟨q', x', hx', e1, e2, e3⟩ := (h.tcb host type cb).mp hcb
        refine ⟨q', x', ?_, e1, e2, e3⟩
        have : q' ≠ q := by
          rintro rfl
          rw [hx] at hx'
          cases hx'
          exact hn ⟨e1, e2⟩
        simp only [upd, this, if_false]
        exact hx'
    · rintro ⟨q', x', hx', e1, e2, e3⟩
      obtain ⟨hn, hx'⟩ := hne hx'
      refine (if_neg ?_).trans ((h.tcb host type cb).mpr ⟨q', x', hx', e1, e2, e3⟩)
      rintro ⟨f1, f2⟩
      exact hn (h.quniq q' q x' x hx' hx (e1.trans f1.symm) (e2.trans f2.symm))
  · exact h.tlog.append fun _ _ _ e => absurd e (by simp)

/-- Changing everything about a query but its name, type and callback. -/
theorem CInv.setQuery {c : Core} (h : CInv c) {q : Nat} {x x' : Query} (hx : c.qs q = some x)
    (hn : x'.name = x.name) (ht : x'.type = x.type) (hc : x'.cb = x.cb) (chk : Nat) :
    CInv { c with qs := upd c.qs q (some x'), checkqlist := chk } := by
  have key : ∀ {q' : Nat} {y : Query}, upd c.qs q (some x') q' = some y →
      ∃ y', c.qs q' = some y' ∧ y.name = y'.name ∧ y.type = y'.type ∧ y.cb = y'.cb := by
    intro q' y hy
    unfold upd at hy
    split at hy
    · rename_i e
      subst e
      cases hy
      exact ⟨x, hx, hn, ht, hc⟩
    · exact ⟨y, hy, rfl, rfl, rfl⟩
  have key2 : ∀ {q' : Nat} {y : Query}, c.qs q' = some y →
      ∃ y', upd c.qs q (some x') q' = some y' ∧ y'.name = y.name ∧ y'.type = y.type ∧ y'.cb = y.cb := by
    intro q' y hy
    unfold upd
    split
    · rename_i e
      subst e
      rw [hx] at hy
      cases hy
      exact ⟨x', rfl, hn, ht, hc⟩
    · exact ⟨y, hy, rfl, rfl, rfl⟩
  constructor
  · intro i q' m
    obtain ⟨y, hy, hb⟩ := h.qmem i q' m
    obtain ⟨y', hy', e1, _⟩ := key2 hy
    exact ⟨y', hy', by rw [e1]; exact hb⟩
  · intro q' y hy
    obtain ⟨y', hy', e1, _⟩ := key hy
    rw [e1]
    exact h.qlive q' y' hy'
  · intro q' m
    obtain ⟨y, hy⟩ := h.qlist q' m
    obtain ⟨y', hy', _⟩ := key2 hy
    exact ⟨y', hy'⟩
  · exact h.qnodup
  · exact h.lnodup
  · intro q1 q2 x1 x2 h1 h2 en et
    obtain ⟨y1, hy1, a1, a2, _⟩ := key h1
    obtain ⟨y2, hy2, b1, b2, _⟩ := key h2
    exact h.quniq q1 q2 y1 y2 hy1 hy2 (by rw [← a1, ← b1]; exact en) (by rw [← a2, ← b2]; exact et)
  · intro q' y hy
    obtain ⟨y', hy', _⟩ := key hy
    exact h.qbound q' y' hy'
  · exact h.cbucket
  · intro i e q' m hq
    obtain ⟨y, hy, e1, e2⟩ := h.cq i e q' m hq
    obtain ⟨y', hy', f1, f2, _⟩ := key2 hy
    exact ⟨y', hy', by rw [f1]; exact e1, by rw [f2]; exact e2⟩
  · exact h.cuniq
  · intro host type cb
    rw [h.tcb]
    constructor
    · rintro ⟨q', y, hy, e1, e2, e3⟩
      obtain ⟨y', hy', f1, f2, f3⟩ := key2 hy
      exact ⟨q', y', hy', by rw [f1]; exact e1, by rw [f2]; exact e2, by rw [f3]; exact e3⟩
    · rintro ⟨q', y, hy, e1, e2, e3⟩
      obtain ⟨y', hy', f1, f2, f3⟩ := key hy
      exact ⟨q', y', hy', by rw [← f1]; exact e1, by rw [← f2]; exact e2, by rw [← f3]; exact e3⟩
  · exact h.tlog

/-- The next time a query is due according to the cache, `_q_reset`. -/
def Core.dueTime (c : Core) (x : Query) : Nat :=
  ((c.chain x.name).filter fun e => e.rr.is x.name x.type).foldl
      (fun nt e => if nt = 0 ∨ sub7 e.rr.ttl < nt then sub7 e.rr.ttl else nt) 0

theorem qReset_eq {c : Core} {q : Nat} {x : Query} (hx : c.qs q = some x) :
    c.qReset q = .ok { c with
      qs := upd c.qs q (some { x with nexttry := c.dueTime x, tries := 0 })
      checkqlist := if c.dueTime x ≠ 0 ∧ c.dueTime x < c.checkqlist then c.dueTime x else c.checkqlist } := by
  unfold Core.qReset
  rw [hx]
  rfl

theorem CInv.qReset {c : Core} (h : CInv c) {q : Nat} {x : Query} (hx : c.qs q = some x) :
    ∃ c', c.qReset q = .ok c' ∧ QStep c c' :=
  ⟨_, qReset_eq hx, h.setQuery (x' := { x with nexttry := c.dueTime x, tries := 0 }) hx rfl rfl rfl _, fun _ => rfl, rfl⟩

theorem upd_upd {α : Type} (f : Nat → α) (i : Nat) (a b : α) : upd (upd f i a) i b = upd f i b := by
  funext j
  unfold upd
  split <;> rfl

/-- The daemon with a new query. -/
def Core.addQuery (c : Core) (host : Bytes) (type cb : Nat) : Core :=
  { c with
    nextq := c.nextq + 1
    qs := upd c.qs c.nextq (some { name := host, type := type, nexttry := c.now.sec, tries := 0, cb := cb })
    queries := upd c.queries (bucket host sprime) (c.nextq :: c.queries (bucket host sprime))
    qlist := c.nextq :: c.qlist
    cache := (c.assoc host type (some c.nextq)).cache
    checkqlist := c.now.sec
    log := c.log ++ [.registered host type cb] }

theorem query_new {c : Core} {host : Bytes} {type cb : Nat} (hf : c.qFind host type = .ok none) :
    c.query host type (some cb) = .ok (c.addQuery host type cb) := by
  unfold Core.query
  rw [hf]
  simp only
  rw [qReset_eq (x := { name := host, type := type, cb := cb }) (by simp [Core.assoc])]
  simp only [Core.assoc, Core.addQuery, Core.chain, upd_same, upd_upd]

theorem CInv.addQuery {c : Core} (h : CInv c) (host : Bytes) (type cb : Nat)
    (hnew : ∀ q x, c.qs q = some x → ¬ (x.name = host ∧ x.type = type)) :
    CInv (c.addQuery host type cb) := by
  have key : ∀ {q' : Nat} {y : Query}, (c.addQuery host type cb).qs q' = some y →
      (q' = c.nextq ∧ y.name = host ∧ y.type = type ∧ y.cb = cb) ∨ c.qs q' = some y ∧ q' ≠ c.nextq := by
    intro q' y hy
    simp only [Core.addQuery, upd] at hy
    split at hy
    · cases hy
      exact .inl ⟨by assumption, rfl, rfl, rfl⟩
    · exact .inr ⟨hy, by assumption⟩
  have key2 : ∀ {q' : Nat} {y : Query}, c.qs q' = some y → (c.addQuery host type cb).qs q' = some y := by
    intro q' y hy
    have := h.qbound q' y hy
    simp only [Core.addQuery, upd, show q' ≠ c.nextq by omega, if_false]
    exact hy
  have self : (c.addQuery host type cb).qs c.nextq =
      some { name := host, type := type, nexttry := c.now.sec, tries := 0, cb := cb } := by
    simp only [Core.addQuery, upd_same]
  have fresh : ∀ i, c.nextq ∉ c.queries i := by
    intro i m
    obtain ⟨x, hx, _⟩ := h.qmem _ _ m
    exact absurd (h.qbound _ _ hx) (by simp)
  have freshl : c.nextq ∉ c.qlist := by
    intro m
    obtain ⟨x, hx⟩ := h.qlist _ m
    exact absurd (h.qbound _ _ hx) (by simp)
  constructor
  · intro i q' m
    simp only [Core.addQuery, upd] at m
    split at m
    · rename_i hi
      rcases List.mem_cons.mp m with rfl | m
      · exact ⟨_, self, hi.symm⟩
      · obtain ⟨x, hx, hb⟩ := h.qmem _ _ m
        exact ⟨x, key2 hx, hb.trans hi.symm⟩
    · obtain ⟨x, hx, hb⟩ := h.qmem _ _ m
      exact ⟨x, key2 hx, hb⟩
  · intro q' y hy
    rcases key hy with ⟨rfl, e1, _⟩ | ⟨hy, _⟩
    · simp [Core.addQuery, e1]
    · obtain ⟨h1, h2⟩ := h.qlive q' y hy
      simp only [Core.addQuery, upd, List.mem_cons, h2, or_true, and_true]
      split
      · rename_i hi
        simp [← hi, h1]
      · exact h1
  · intro q' m
    rcases List.mem_cons.mp m with rfl | m
    · exact ⟨_, self⟩
    · obtain ⟨x, hx⟩ := h.qlist _ m
      exact ⟨x, key2 hx⟩
  · intro i
    simp only [Core.addQuery, upd]
    split
    · exact List.nodup_cons.mpr ⟨fresh _, h.qnodup _⟩
    · exact h.qnodup i
  · exact List.nodup_cons.mpr ⟨freshl, h.lnodup⟩
  · intro q1 q2 x1 x2 h1 h2 en et
    rcases key h1 with ⟨a0, a1, a2, _⟩ | ⟨h1, _⟩ <;> rcases key h2 with ⟨b0, b1, b2, _⟩ | ⟨h2, _⟩
    · rw [a0, b0]
    · exact absurd ⟨en.symm.trans a1, et.symm.trans a2⟩ (hnew _ _ h2)
    · exact absurd ⟨en.trans b1, et.trans b2⟩ (hnew _ _ h1)
    · exact h.quniq _ _ _ _ h1 h2 en et
  · intro q' y hy
    rcases key hy with ⟨rfl, _⟩ | ⟨hy, _⟩
    · exact Nat.lt_succ_self _
    · exact Nat.lt_succ_of_lt (h.qbound _ _ hy)
  · intro i e m
    obtain ⟨e', m', he, _⟩ := assoc_mem m
    rw [he]
    exact h.cbucket i e' m'
  · intro i e q' m hq'
    obtain ⟨e', m', he, hh⟩ := assoc_mem m
    rcases hh with ⟨hq, hn, ht⟩ | ⟨rfl, _⟩
    · rw [hq] at hq'
      cases hq'
      exact ⟨_, self, hn.symm, ht⟩
    · obtain ⟨x', hx', e1, e2⟩ := h.cq i e q' m' hq'
      exact ⟨x', key2 hx', e1, e2⟩
  · exact cuniq_of_rrs (fun i => assoc_rrs c host type _ i) h.cuniq
  · intro host' type' cb'
    show callback (c.log ++ [.registered host type cb]) host' type' = some cb' ↔ _
    rw [callback_append_registered]
    split
    · rename_i he
      obtain ⟨rfl, rfl⟩ := he
      constructor
      · intro e
        cases e
        exact ⟨_, _, self, rfl, rfl, rfl⟩
      · rintro ⟨q', y, hy, e1, e2, e3⟩
        rcases key hy with ⟨_, _, _, e⟩ | ⟨hy, _⟩
        · rw [← e, e3]
        · exact absurd ⟨e1, e2⟩ (hnew _ _ hy)
    · rename_i he
      rw [h.tcb]
      constructor
      · rintro ⟨q', y, hy, r⟩
        exact ⟨q', y, key2 hy, r⟩
      · rintro ⟨q', y, hy, e1, e2, e3⟩
        rcases key hy with ⟨_, f1, f2, _⟩ | ⟨hy, _⟩
        · exact absurd ⟨f1.symm.trans e1, f2.symm.trans e2⟩ he
        · exact ⟨q', y, hy, e1, e2, e3⟩
  · exact h.tlog.append fun _ _ _ e => absurd e (by simp)

theorem CInv.setCb {c : Core} (h : CInv c) {q : Nat} {x : Query} (hx : c.qs q = some x) (cb : Nat) :
    CInv { c with
      qs := upd c.qs q (some { x with cb := cb })
      log := c.log ++ [.registered x.name x.type cb] } := by
  have key : ∀ {q' : Nat} {y : Query}, upd c.qs q (some { x with cb := cb }) q' = some y →
      ∃ y', c.qs q' = some y' ∧ y.name = y'.name ∧ y.type = y'.type ∧ (q' = q ∧ y.cb = cb ∨ q' ≠ q ∧ y = y') := by
    intro q' y hy
    unfold upd at hy
    split at hy
    · rename_i e
      subst e
      cases hy
      exact ⟨x, hx, rfl, rfl, .inl ⟨rfl, rfl⟩⟩
    · exact ⟨y, hy, rfl, rfl, .inr ⟨by assumption, rfl⟩⟩
  have key2 : ∀ {q' : Nat} {y : Query}, c.qs q' = some y →
      ∃ y', upd c.qs q (some { x with cb := cb }) q' = some y' ∧ y'.name = y.name ∧ y'.type = y.type := by
    intro q' y hy
    unfold upd
    split
    · rename_i e
      subst e
      rw [hx] at hy
      cases hy
      exact ⟨_, rfl, rfl, rfl⟩
    · exact ⟨y, hy, rfl, rfl⟩
  constructor
  · intro i q' m
    obtain ⟨y, hy, hb⟩ := h.qmem i q' m
    obtain ⟨y', hy', e1, _⟩ := key2 hy
    exact ⟨y', hy', by rw [e1]; exact hb⟩
  · intro q' y hy
    obtain ⟨y', hy', e1, _⟩ := key hy
    rw [e1]
    exact h.qlive q' y' hy'
  · intro q' m
    obtain ⟨y, hy⟩ := h.qlist q' m
    obtain ⟨y', hy', _⟩ := key2 hy
    exact ⟨y', hy'⟩
  · exact h.qnodup
  · exact h.lnodup
  · intro q1 q2 x1 x2 h1 h2 en et
    obtain ⟨y1, hy1, a1, a2, _⟩ := key h1
    obtain ⟨y2, hy2, b1, b2, _⟩ := key h2
    exact h.quniq q1 q2 y1 y2 hy1 hy2 (by rw [← a1, ← b1]; exact en) (by rw [← a2, ← b2]; exact et)
  · intro q' y hy
    obtain ⟨y', hy', _⟩ := key hy
    exact h.qbound q' y' hy'
  · exact h.cbucket
  · intro i e q' m hq
    obtain ⟨y, hy, e1, e2⟩ := h.cq i e q' m hq
    obtain ⟨y', hy', f1, f2⟩ := key2 hy
    exact ⟨y', hy', by rw [f1]; exact e1, by rw [f2]; exact e2⟩
  · exact h.cuniq
  · intro host type cb'
    rw [callback_append_registered]
    split
    · rename_i he
      obtain ⟨rfl, rfl⟩ := he
      constructor
      · intro e
        cases e
        exact ⟨q, { x with cb := cb }, by simp only [upd_same], rfl, rfl, rfl⟩
      · rintro ⟨q', y, hy, e1, e2, e3⟩
        obtain ⟨y', hy', f1, f2, f3⟩ := key hy
        have : q' = q := h.quniq _ _ _ _ hy' hx (f1.symm.trans e1) (f2.symm.trans e2)
        rcases f3 with ⟨_, f3⟩ | ⟨f3, _⟩
        · rw [← f3, e3]
        · exact absurd this f3
    · rename_i he
      rw [h.tcb]
      constructor
      · rintro ⟨q', y, hy, e1, e2, e3⟩
        refine ⟨q', y, ?_, e1, e2, e3⟩
        have : q' ≠ q := by
          rintro rfl
          rw [hx] at hy
          cases hy
          exact he ⟨e1, e2⟩
        simp only [upd, this, if_false]
        exact hy
      · rintro ⟨q', y, hy, e1, e2, e3⟩
        obtain ⟨y', hy', f1, f2, f3⟩ := key hy
        rcases f3 with ⟨rfl, _⟩ | ⟨_, rfl⟩
        · rw [hx] at hy'
          cases hy'
          exact absurd ⟨f1.symm.trans e1, f2.symm.trans e2⟩ he
        · exact ⟨q', y, hy', e1, e2, e3⟩
  · exact h.tlog.append fun _ _ _ e => absurd e (by simp)

/-- Entries with a query keep having one. -/
def Keeps (c c' : Core) : Prop :=
  ∀ (i k : Nat) (a : Cached), (c.cache i)[k]? = some a → a.q.isSome →
    ∃ b : Cached, (c'.cache i)[k]? = some b ∧ b.q.isSome

/-- What changes when queries are registered or get another callback. -/
structure Regd (c c' : Core) : Prop extends QStep c c' where
  keep : ∀ q x, c.qs q = some x → ∃ cb, c'.qs q = some { x with cb := cb }
  new : ∀ q x, c'.qs q = some x → (∃ cb, c.qs q = some { x with cb := cb }) ∨
    c.qs q = none ∧ c.nextq ≤ q ∧ x.nexttry = c.now.sec ∧ x.tries = 0 ∧ c'.checkqlist = c.now.sec
  chk : c'.checkqlist = c.checkqlist ∨ c'.checkqlist = c.now.sec
  qlist : ∃ l, c'.qlist = l ++ c.qlist
  nextq : c.nextq ≤ c'.nextq
  entries : Keeps c c'

theorem Regd.trans {a b c : Core} (h : Regd a b) (h' : Regd b c) : Regd a c := by
  refine { h.toQStep.trans h'.toQStep with
    keep := ?_, new := ?_, chk := ?_, qlist := ?_, nextq := Nat.le_trans h.nextq h'.nextq, entries := ?_ }
  · intro q x hx
    obtain ⟨cb, hx1⟩ := h.keep q x hx
    obtain ⟨cb', hx2⟩ := h'.keep q _ hx1
    exact ⟨cb', hx2⟩
  · intro q x hx
    rcases h'.new q x hx with ⟨cb, hx1⟩ | ⟨hx1, e0, e1, e2, e3⟩
    · rcases h.new q _ hx1 with ⟨cb', hx2⟩ | ⟨hx2, e0, e1, e2, e3⟩
      · exact .inl ⟨cb', hx2⟩
      · refine .inr ⟨hx2, e0, e1, e2, ?_⟩
        rcases h'.chk with e | e
        · rw [e, e3]
        · rw [e, h.now]
    · rw [h.now] at e1 e3
      refine .inr ⟨?_, Nat.le_trans h.nextq e0, e1, e2, e3⟩
      cases hq : a.qs q with
      | none => rfl
      | some y =>
        obtain ⟨cb, hy⟩ := h.keep q y hq
        rw [hx1] at hy
        exact absurd hy (by simp)
  · rcases h'.chk with e | e
    · rw [e]; exact h.chk
    · rw [e, h.now]; exact .inr rfl
  · obtain ⟨l1, e1⟩ := h.qlist
    obtain ⟨l2, e2⟩ := h'.qlist
    exact ⟨l2 ++ l1, by rw [e2, e1, List.append_assoc]⟩
  · intro i k x hx hq
    obtain ⟨y, hy, hq'⟩ := h.entries i k x hx hq
    exact h'.entries i k y hy hq'

theorem Regd.refl {c : Core} (h : CInv c) : Regd c c :=
  { QStep.refl h with
    keep := fun _ x hx => ⟨x.cb, hx⟩
    new := fun _ x hx => .inl ⟨x.cb, hx⟩
    chk := .inl rfl
    qlist := ⟨[], rfl⟩
    nextq := Nat.le_refl _
    entries := fun _ _ a ha hq => ⟨a, ha, hq⟩ }

theorem Regd.qs_ex {c c' : Core} (h : Regd c c') {q : Nat} {x : Query} (hx : c.qs q = some x) :
    ∃ x', c'.qs q = some x' ∧ x'.name = x.name ∧ x'.type = x.type := by
  obtain ⟨cb, e⟩ := h.keep q x hx
  exact ⟨_, e, rfl, rfl⟩

theorem Regd.now {c c' : Core} (h : Regd c c') : c'.now = c.now := h.toQStep.now

theorem assoc_keeps (c : Core) (host : Bytes) (type q : Nat) (i k : Nat) (a : Cached)
    (ha : (c.cache i)[k]? = some a) (hq : a.q.isSome) :
    ∃ b, ((c.assoc host type (some q)).cache i)[k]? = some b ∧ b.q.isSome := by
  unfold Core.assoc Core.chain
  simp only [upd]
  split
  · rename_i hi
    rw [List.getElem?_map, ← hi, ha]
    refine ⟨_, rfl, ?_⟩
    simp only
    split
    · rfl
    · exact hq
  · exact ⟨a, ha, hq⟩

/-- Registering a query. -/
theorem CInv.queryOn {c : Core} (h : CInv c) (host : Bytes) (type cb : Nat) :
    ∃ c', c.query host type (some cb) = .ok c' ∧ Regd c c' ∧ c'.log = c.log ++ [.registered host type cb] := by
  obtain ⟨o, h1, h2, h3⟩ := h.qFind host type
  cases o with
  | none =>
    have hn := h3 rfl
    refine ⟨_, query_new h1, { (⟨h.addQuery host type cb hn, fun i => assoc_rrs c host type _ i, rfl⟩ :
        QStep c (c.addQuery host type cb)) with
      keep := ?_, new := ?_, chk := .inr rfl, qlist := ⟨[c.nextq], rfl⟩, nextq := Nat.le_succ _,
      entries := ?_ }, rfl⟩
    · intro q x hx
      have := h.qbound q x hx
      exact ⟨x.cb, by simp only [Core.addQuery, upd, show q ≠ c.nextq by omega, if_false]; exact hx⟩
    · intro q x hx
      simp only [Core.addQuery, upd] at hx
      split at hx
      · rename_i e
        subst e
        cases hx
        refine .inr ⟨?_, Nat.le_refl _, rfl, rfl, rfl⟩
        cases hq : c.qs c.nextq with
        | none => rfl
        | some y => exact absurd (h.qbound _ _ hq) (by simp)
      · exact .inl ⟨x.cb, hx⟩
    · exact fun i k a ha hq => assoc_keeps c host type c.nextq i k a ha hq
  | some q =>
    obtain ⟨x, hx, rfl, rfl⟩ := h2 q rfl
    unfold Core.query
    rw [h1]
    simp only [hx]
    refine ⟨_, rfl, { (⟨h.setCb hx cb, fun _ => rfl, rfl⟩ : QStep c { c with
          qs := upd c.qs q (some { x with cb := cb })
          log := c.log ++ [.registered x.name x.type cb] }) with
      keep := ?_, new := ?_, chk := .inl rfl, qlist := ⟨[], rfl⟩, nextq := Nat.le_refl _,
      entries := fun _ _ a ha hq => ⟨a, ha, hq⟩ }, rfl⟩
    · intro q' x' hx'
      by_cases e : q' = q
      · subst e
        rw [hx] at hx'
        cases hx'
        exact ⟨cb, by simp only [upd_same]⟩
      · exact ⟨x'.cb, by simp only [upd, e, if_false]; exact hx'⟩
    · intro q' x' hx'
      by_cases e : q' = q
      · subst e
        simp only [upd_same] at hx'
        cases hx'
        exact .inl ⟨x.cb, hx⟩
      · simp only [upd, e, if_false] at hx'
        exact .inl ⟨x'.cb, hx'⟩

/-- Ending a query. -/
theorem CInv.queryOff {c : Core} (h : CInv c) (host : Bytes) (type : Nat) :
    ∃ c', c.query host type none = .ok c' ∧ QStep c c' ∧
      (c'.log = c.log ++ [.unregistered host type] ∨ c' = c) ∧ callback c'.log host type = none := by
  obtain ⟨o, h1, h2, h3⟩ := h.qFind host type
  cases o with
  | none =>
    unfold Core.query
    rw [h1]
    refine ⟨_, rfl, .refl h, .inr rfl, ?_⟩
    cases hc : callback c.log host type with
    | none => rfl
    | some cb =>
      obtain ⟨q, x, hx, e1, e2, _⟩ := (h.tcb _ _ _).mp hc
      exact absurd ⟨e1, e2⟩ (h3 rfl q x hx)
  | some q =>
    obtain ⟨x, hx, rfl, rfl⟩ := h2 q rfl
    obtain ⟨c', e1, e2, _, e3, _⟩ := h.qDone hx
    unfold Core.query
    rw [h1]
    refine ⟨c', e1, e2, .inl e3, ?_⟩
    rw [e3, callback_append_unregistered, if_pos ⟨rfl, rfl⟩]

theorem CInv.register {c : Core} (h : CInv c) : ∀ l, ∃ c', c.register l = .ok c' ∧ Regd c c' ∧
    c'.log = c.log ++ l.map fun e => .registered e.1 e.2.1 e.2.2 := by
  intro l
  induction l generalizing c with
  | nil => exact ⟨c, rfl, .refl h, by simp⟩
  | cons a l ih =>
    obtain ⟨host, type, cb⟩ := a
    obtain ⟨c1, e1, s1, l1⟩ := h.queryOn host type cb
    obtain ⟨c2, e2, s2, l2⟩ := ih s1.inv
    refine ⟨c2, ?_, s1.trans s2, ?_⟩
    · unfold Core.register
      rw [e1]
      exact e2
    · rw [l2, l1]
      simp

theorem answersOf_registered (l : List (Bytes × Nat × Nat)) :
    answersOf (l.map fun e => Event.registered e.1 e.2.1 e.2.2) = [] := by
  induction l with
  | nil => rfl
  | cons a l ih => simp [answersOf]

/-- Adding an event that is no registration. -/
theorem CInv.addAnswer {c : Core} (h : CInv c) {q : Nat} {x : Query} {rr : Answer} (hx : c.qs q = some x)
    (hn : x.name = rr.name) (ht : typeFits x.type rr) :
    CInv { c with log := c.log ++ [.answer q x.cb rr] } := by
  have hcb : callback c.log rr.name x.type = some x.cb := (h.tcb _ _ _).mpr ⟨q, x, hx, hn, rfl, rfl⟩
  refine { h with tcb := ?_, tlog := ?_ }
  · intro host type cb
    rw [callback_append_answer]
    exact h.tcb host type cb
  · refine h.tlog.append ?_
    rintro q' cb' rr' ⟨⟩
    exact ⟨x.type, ht, hcb⟩

/-- The record as the callback sees it: lifetime 0 once it is over. -/
def Core.seen (c : Core) (rr : Answer) : Answer :=
  if rr.ttl ≤ c.now.sec then { rr with ttl := 0 } else rr

theorem CInv.callAnswer {c : Core} (h : CInv c) (env : Env) {q : Nat} {x : Query} {rr : Answer}
    (hx : c.qs q = some x) (hn : x.name = rr.name) (ht : typeFits x.type rr) :
    ∃ c' evs, c.callAnswer env q rr = .ok ((env.answer (c.log ++ [.answer q x.cb (c.seen rr)])).stop, c') ∧
      Regd c c' ∧ c'.log = c.log ++ .answer q x.cb (c.seen rr) :: evs ∧
      evs = (env.answer (c.log ++ [.answer q x.cb (c.seen rr)])).reg.map fun e => .registered e.1 e.2.1 e.2.2 := by
  have h1 : CInv { c with log := c.log ++ [.answer q x.cb (c.seen rr)] } := by
    apply h.addAnswer hx
    · rw [hn]; unfold Core.seen; split <;> rfl
    · unfold Core.seen; split <;> exact ht
  obtain ⟨c', e1, s1, l1⟩ := h1.register (env.answer (c.log ++ [.answer q x.cb (c.seen rr)])).reg
  have e2 : c.callAnswer env q rr =
      match ({ c with log := c.log ++ [.answer q x.cb (c.seen rr)] } : Core).register
        (env.answer (c.log ++ [.answer q x.cb (c.seen rr)])).reg with
      | .ok c' => .ok ((env.answer (c.log ++ [.answer q x.cb (c.seen rr)])).stop, c')
      | .ub => .ub
      | .hang => .hang := by
    unfold Core.callAnswer
    rw [hx]
    rfl
  rw [e2, e1]
  refine ⟨c', _, rfl, ?_, ?_, rfl⟩
  · exact { s1 with }
  · rw [l1]
    simp
end Mdns
