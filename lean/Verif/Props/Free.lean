import Verif.Model.Free
import Verif.Lemmas.History
import Verif.Props.Memory
import Verif.Props.Packets

/-!
# C65: freeing a context releases everything once
-/

namespace Mdns

/-! ### Specification -/

/-- Nothing that was allocated is left. -/
structure AllFreed (d : D Ptrs) : Prop where
  records : ∀ r, d.c.recs r = none
  links : ∀ r, d.q.link r = none
  queries : ∀ q, d.c.qs q = none
  cache : ∀ i, d.c.cache i = []
  replies : d.c.uanswers = []
  addresses : d.c.locals = []

/-! ### Proofs -/

/-- What the loop over the tables leaves. -/
structure Freed (d d' : D Ptrs) (rs qs : List Nat) : Prop where
  recs : ∀ r, d'.c.recs r = if r ∈ rs then none else d.c.recs r
  link : ∀ r, d'.q.link r = if r ∈ rs then none else d.q.link r
  qs : ∀ q, d'.c.qs q = if q ∈ qs then none else d.c.qs q
  published : d'.c.published = d.c.published
  queries : d'.c.queries = d.c.queries
  cache : d'.c.cache = d.c.cache

theorem Freed.trans {d1 d2 d3 : D Ptrs} {r1 r2 q1 q2 : List Nat} (a : Freed d1 d2 r1 q1) (b : Freed d2 d3 r2 q2) :
    Freed d1 d3 (r1 ++ r2) (q1 ++ q2) where
  recs r := by
    rw [b.recs, a.recs]
    by_cases h1 : r ∈ r1 <;> by_cases h2 : r ∈ r2 <;> simp [h1, h2]
  link r := by
    rw [b.link, a.link]
    by_cases h1 : r ∈ r1 <;> by_cases h2 : r ∈ r2 <;> simp [h1, h2]
  qs q := by
    rw [b.qs, a.qs]
    by_cases h1 : q ∈ q1 <;> by_cases h2 : q ∈ q2 <;> simp [h1, h2]
  published := b.published.trans a.published
  queries := b.queries.trans a.queries
  cache := b.cache.trans a.cache

theorem Freed.refl (d : D Ptrs) : Freed d d [] [] := ⟨by simp, by simp, by simp, rfl, rfl, rfl⟩

theorem freeRec_freed {d : D Ptrs} {r : Nat} (h1 : (d.c.recs r).isSome) (h2 : (d.q.link r).isSome) :
    ∃ d', freeRec r d = .ok ((), d') ∧ Freed d d' [r] [] := by
  obtain ⟨x, hx⟩ := Option.isSome_iff_exists.mp h1
  obtain ⟨y, hy⟩ := Option.isSome_iff_exists.mp h2
  refine ⟨{ c := { d.c with recs := upd d.c.recs r none }, q := { d.q with link := upd d.q.link r none } }, ?_, ?_⟩
  · simp [freeRec, M.getRec, M.modC, M.liftQ, bind, hx, QOps.free, hy, Res.bind]
  · exact ⟨fun s => by simp [upd], fun s => by simp [upd], by simp, rfl, rfl, rfl⟩

theorem freeQuery_freed {d : D Ptrs} {q : Nat} (h : (d.c.qs q).isSome) : ∃ d', freeQuery q d = .ok ((), d') ∧ Freed d d' [] [q] := by
  obtain ⟨x, hx⟩ := Option.isSome_iff_exists.mp h
  refine ⟨{ d with c := { d.c with qs := upd d.c.qs q none } }, ?_, ?_⟩
  · simp [freeQuery, M.liftC, hx]
  · exact ⟨by simp, by simp, fun s => by simp [upd], rfl, rfl, rfl⟩

theorem freeRecs_freed : ∀ (l : List Nat) (d : D Ptrs), l.Nodup → (∀ r ∈ l, (d.c.recs r).isSome ∧ (d.q.link r).isSome) →
    ∃ d', forRecs freeRec l d = .ok ((), d') ∧ Freed d d' l []
  | [], d, _, _ => ⟨d, rfl, .refl d⟩
  | r :: l, d, hn, h => by
    obtain ⟨n1, n2⟩ := List.nodup_cons.mp hn
    obtain ⟨d1, e1, f1⟩ := freeRec_freed (h r (.head _)).1 (h r (.head _)).2
    obtain ⟨d2, e2, f2⟩ := freeRecs_freed l d1 n2 (fun s hs => by
      have ne : s ≠ r := fun e => n1 (e ▸ hs)
      rw [f1.recs, f1.link]
      simpa [ne] using h s (.tail _ hs))
    exact ⟨d2, by rw [forRecs, M.bind_ok e1, e2], f1.trans f2⟩

theorem freeQueries_freed : ∀ (l : List Nat) (d : D Ptrs), l.Nodup → (∀ q ∈ l, (d.c.qs q).isSome) →
    ∃ d', forRecs freeQuery l d = .ok ((), d') ∧ Freed d d' [] l
  | [], d, _, _ => ⟨d, rfl, .refl d⟩
  | r :: l, d, hn, h => by
    obtain ⟨n1, n2⟩ := List.nodup_cons.mp hn
    obtain ⟨d1, e1, f1⟩ := freeQuery_freed (h r (.head _))
    obtain ⟨d2, e2, f2⟩ := freeQueries_freed l d1 n2 (fun s hs => by
      have ne : s ≠ r := fun e => n1 (e ▸ hs)
      rw [f1.qs]
      simpa [ne] using h s (.tail _ hs))
    exact ⟨d2, by rw [forRecs, M.bind_ok e1, e2], f1.trans f2⟩

theorem freeTables_freed : ∀ (l : List Nat) (d : D Ptrs), l.Nodup →
    (∀ i ∈ l, (d.c.published i).Nodup ∧ (d.c.queries i).Nodup) →
    (∀ i ∈ l, ∀ r ∈ d.c.published i, (d.c.recs r).isSome ∧ (d.q.link r).isSome) →
    (∀ i ∈ l, ∀ q ∈ d.c.queries i, (d.c.qs q).isSome) →
    (∀ i ∈ l, ∀ j ∈ l, ∀ r, r ∈ d.c.published i → r ∈ d.c.published j → i = j) →
    (∀ i ∈ l, ∀ j ∈ l, ∀ q, q ∈ d.c.queries i → q ∈ d.c.queries j → i = j) →
    ∃ d', freeTables l d = .ok ((), d') ∧ Freed d d' (l.flatMap d.c.published) (l.flatMap d.c.queries)
  | [], d, _, _, _, _, _, _ => ⟨d, rfl, .refl d⟩
  | i :: l, d, hn, h1, h2, h3, h4, h5 => by
    obtain ⟨n1, n2⟩ := List.nodup_cons.mp hn
    obtain ⟨d1, e1, f1⟩ := freeRecs_freed (d.c.published i) d (h1 i (.head _)).1 (h2 i (.head _))
    obtain ⟨d2, e2, f2⟩ := freeQueries_freed (d.c.queries i) d1 (h1 i (.head _)).2 (fun q hq => by
      rw [f1.qs]
      simpa using h3 i (.head _) q hq)
    have f := f1.trans f2
    rw [List.append_nil, List.nil_append] at f
    obtain ⟨d3, e3, f3⟩ := freeTables_freed l d2 n2
      (fun j hj => by rw [f.published, f.queries]; exact h1 j (.tail _ hj))
      (fun j hj r hr => by
        rw [f.published] at hr
        have : r ∉ d.c.published i := fun m => n1 (h4 i (.head _) j (.tail _ hj) r m hr ▸ hj)
        rw [f.recs, f.link]
        simpa [this] using h2 j (.tail _ hj) r hr)
      (fun j hj q hq => by
        rw [f.queries] at hq
        have : q ∉ d.c.queries i := fun m => n1 (h5 i (.head _) j (.tail _ hj) q m hq ▸ hj)
        rw [f.qs]
        simpa [this] using h3 j (.tail _ hj) q hq)
      (fun j hj k hk r => by rw [f.published]; exact h4 j (.tail _ hj) k (.tail _ hk) r)
      (fun j hj k hk r => by rw [f.queries]; exact h5 j (.tail _ hj) k (.tail _ hk) r)
    refine ⟨d3, ?_, ?_⟩
    · show freeTables (i :: l) d = _
      rw [freeTables]
      exact (M.bind_ok rfl).trans ((M.bind_ok e1).trans ((M.bind_ok e2).trans e3))
    · rw [f.published, f.queries] at f3
      exact f.trans f3

/-- C65: whatever calls have been made, freeing the context frees each record, query, cache entry and pending reply that
exists, none twice, and none is left. -/
theorem C65_all_freed {env : Env} {d : D Ptrs} (h : Reach env d) : ∃ d', daemonFree d = .ok ((), d') ∧ AllFreed d' := by
  have hr := h.inv.rinv
  have hc := h.inv.cinv
  have hl : ∀ r, (d.q.link r).isSome = (d.c.recs r).isSome := fun r => by
    obtain ⟨l, hp⟩ := h.rep
    rw [hp.rq.live, hp.inv.rinv.live]
  let d0 : D Ptrs := { d with c := { d.c with cache := fun i => if i < lprime then [] else d.c.cache i } }
  obtain ⟨d1, e1, f⟩ := freeTables_freed (List.range sprime) d0 List.nodup_range (fun i _ => ⟨hr.pnodup i, hc.qnodup i⟩)
    (fun i _ r m => by
      obtain ⟨x, hx, _⟩ := hr.pub i r m
      have : (d.c.recs r).isSome = true := by rw [hx]; rfl
      exact ⟨this, by show (d.q.link r).isSome = true; rw [hl, this]⟩)
    (fun i _ q m => by
      obtain ⟨x, hx, _⟩ := hc.qmem i q m
      show (d.c.qs q).isSome = true
      rw [hx]; rfl)
    (fun i _ j _ r a b => by
      obtain ⟨x, hx, e⟩ := hr.pub i r a
      obtain ⟨y, hy, e'⟩ := hr.pub j r b
      rw [hx] at hy
      cases hy
      exact e.symm.trans e')
    (fun i _ j _ r a b => by
      obtain ⟨x, hx, e⟩ := hc.qmem i r a
      obtain ⟨y, hy, e'⟩ := hc.qmem j r b
      rw [hx] at hy
      cases hy
      exact e.symm.trans e')
  have all : ∀ r x, d.c.recs r = some x → r ∈ (List.range sprime).flatMap d.c.published := fun r x hx =>
    List.mem_flatMap.mpr ⟨_, List.mem_range.mpr (bucket_lt _ _ sprime_pos), hr.mem r x hx⟩
  refine ⟨{ d1 with c := { d1.c with uanswers := [], locals := [] } }, ?_, ?_, ?_, ?_, ?_, rfl, rfl⟩
  · exact (M.bind_ok (a := ()) (d' := d0) rfl).trans ((M.bind_ok e1).trans rfl)
  · intro r
    show d1.c.recs r = none
    rw [f.recs]
    split
    · rfl
    · rename_i n
      cases hx : d.c.recs r with
      | none => rfl
      | some x => exact absurd (all r x hx) n
  · intro r
    show d1.q.link r = none
    rw [f.link]
    split
    · rfl
    · rename_i n
      show d.q.link r = none
      cases hx : d.c.recs r with
      | none =>
        have := hl r
        rw [hx] at this
        simpa using this
      | some x => exact absurd (all r x hx) n
  · intro q
    show d1.c.qs q = none
    rw [f.qs]
    split
    · rfl
    · rename_i n
      cases hx : d.c.qs q with
      | none => rfl
      | some x =>
        exact absurd (List.mem_flatMap.mpr ⟨_, List.mem_range.mpr (bucket_lt _ _ sprime_pos), (hc.qlive q x hx).1⟩) n
  · intro i
    show d1.c.cache i = []
    rw [f.cache]
    show (if i < lprime then [] else d.c.cache i) = []
    split
    · rfl
    · rename_i n
      cases hx : d.c.cache i with
      | nil => rfl
      | cons e l =>
        have := hc.cbucket i e (by rw [hx]; exact .head _)
        exact absurd (this ▸ bucket_lt _ _ lprime_pos) n

/-! ### The hypotheses can be met -/

namespace Sample

/-- Two records, one of them queued, a query, a cache entry, and a pending reply. -/
example : ∃ d d', Reach quiet d ∧ (d.c.recs 0).isSome ∧ (d.c.recs 1).isSome ∧ d.q.head .probing = some 0 ∧ (d.c.qs 0).isSome ∧
    (d.c.cache (bucket (nm 97) lprime)).length = 1 ∧ d.c.uanswers.length = 1 ∧ daemonFree d = .ok ((), d') ∧ AllFreed d' := by
  have r := reach_of (cls := 1) (frame := 1500) (now := at_ 100) (ops := ops.take 8 ++ [.recv (at_ 101) (ask (nm 98) 12) lone]) (by decide +kernel)
  obtain ⟨d', e, f⟩ := C65_all_freed r
  exact ⟨_, d', r, by decide +kernel, by decide +kernel, by decide +kernel, by decide +kernel, by decide +kernel,
    by decide +kernel, e, f⟩

end Sample

end Mdns
