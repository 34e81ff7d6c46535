import Verif.Model.XhtAlloc
import Verif.Props.Xht

/-!
# C110: the string table when memory runs out
-/

namespace Mdns.Xht

/-- A call that was refused memory: nothing of the table changes; copies made may have been freed
again, or else lost if there was no memory for a node. -/
inductive Refused (l : Luck) (t : Table) : Table → Prop
  | kept : Refused l t t
  | freed : Refused l t { t with next := t.next + 1, freed := t.freed ++ [.own t.next] }
  | lost (h : l.node = false) : Refused l t { t with next := t.next + 2 }

theorem setNodeF_cases (t : Table) (key : Obj) (val : Option Obj) (flag node : Bool) :
    setNodeF t key val flag node = setNode t key val flag ∨ (node = false ∧ setNodeF t key val flag node = t) := by
  unfold setNodeF
  split
  · exact .inl rfl
  · split
    · exact .inl rfl
    · next h => exact .inr ⟨by simpa using h, rfl⟩

theorem stepF_cases (t : Table) (o : Op) (l : Luck) :
    stepF t (o, l) = step t o ∨ (l ≠ {} ∧ Refused l t (stepF t (o, l))) := by
  cases o with
  | set a k v =>
    rcases setNodeF_cases t ⟨.user a, k⟩ (v.map fun v => ⟨.user v.1, v.2⟩) false l.node with h | ⟨hn, h⟩
    · exact .inl h
    · exact .inr ⟨fun e => (by subst e; cases hn), by rw [show stepF t (.set a k v, l) = t from h]; exact .kept⟩
  | store k v =>
    cases v with
    | none => exact .inl rfl
    | some v =>
      by_cases hk : k.length = 0
      · refine .inl ?_
        simp only [stepF, storeF, step, store, hk, if_true]
      · by_cases h1 : l.key = false
        · refine .inr ⟨fun e => (by subst e; cases h1), ?_⟩
          simp only [stepF, storeF, hk, h1, if_true, if_false]
          exact .kept
        · by_cases h2 : l.val = false
          · refine .inr ⟨fun e => (by subst e; cases h2), ?_⟩
            simp only [stepF, storeF, hk, h1, h2, Bool.true_eq_false, if_true, if_false]
            exact .freed
          · rcases setNodeF_cases t ⟨.own t.next, cstr k⟩ (some ⟨.own (t.next + 1), cstr v⟩) true l.node with h | ⟨hn, h⟩
            · refine .inl ?_
              simp only [stepF, storeF, step, store, hk, h1, h2, Bool.true_eq_false, if_false, h]
            · refine .inr ⟨fun e => (by subst e; cases hn), ?_⟩
              simp only [stepF, storeF, hk, h1, h2, Bool.true_eq_false, if_false, h]
              exact .lost hn

theorem Refused.zen {l : Luck} {t u : Table} (h : Refused l t u) : u.zen = t.zen ∧ u.prime = t.prime := by
  cases h <;> exact ⟨rfl, rfl⟩

theorem get_congr {t u : Table} (h : u.zen = t.zen ∧ u.prime = t.prime) (k : Bytes) : get u k = get t k := by
  rw [get_eq, get_eq, h.1, h.2]

theorem Inv.congr {t u : Table} (i : Inv t) (h : u.zen = t.zen ∧ u.prime = t.prime) : Inv u :=
  ⟨by rw [h.2]; exact i.prime, fun j n hn k hk => by rw [h.2]; exact i.home j n (by rw [← h.1]; exact hn) k hk,
    fun j => by rw [h.1]; exact i.distinct j⟩

/-- Everything freed was made, and nothing is freed twice. -/
structure Ledger (t : Table) : Prop where
  nodup : (free t).Nodup
  made : ∀ a ∈ free t, ∃ n, n < t.next ∧ a = .own n
  own : OwnFlag t

theorem range_own {n : Nat} {a : Addr} : a ∈ (List.range n).map Addr.own ↔ ∃ k, k < n ∧ a = .own k := by
  simp only [List.mem_map, List.mem_range]
  exact ⟨fun ⟨k, h, e⟩ => ⟨k, h, e.symm⟩, fun ⟨k, h, e⟩ => ⟨k, h, e.symm⟩⟩

theorem Ledger.refused {l : Luck} {t u : Table} (h : Ledger t) (r : Refused l t u) : Ledger u := by
  cases r with
  | kept => exact h
  | freed =>
    have e : (free { t with next := t.next + 1, freed := t.freed ++ [.own t.next] }).Perm (.own t.next :: free t) := by
      unfold free
      rw [List.append_assoc]
      exact List.perm_middle
    refine ⟨e.nodup_iff.mpr (List.nodup_cons.mpr ⟨fun m => ?_, h.nodup⟩), fun a ha => ?_, h.own⟩
    · obtain ⟨n, hn, en⟩ := h.made _ m
      cases en
      omega
    · rcases List.mem_cons.mp (e.mem_iff.mp ha) with rfl | m
      · exact ⟨t.next, Nat.lt_succ_self _, rfl⟩
      · obtain ⟨n, hn, en⟩ := h.made _ m
        exact ⟨n, Nat.lt_succ_of_lt hn, en⟩
  | lost _ => exact ⟨h.nodup, fun a ha => (h.made a ha).imp fun n ⟨hn, en⟩ => ⟨Nat.lt_trans hn (by simp), en⟩, h.own⟩

theorem Ledger.set {t : Table} (hp : 0 < t.prime) (h : Ledger t) (o : Op) : Ledger (step t o) := by
  have ow : OwnFlag (step t o) := ownFlag_run [o] t h.own
  cases o with
  | set a key val =>
    have p := free_setNode (t := t) hp ⟨.user a, key⟩ (val.map fun v => ⟨.user v.1, v.2⟩) false
    simp only [freeNode, Bool.false_eq_true, if_false, List.append_nil] at p
    have hn : (step t (.set a key val)).next = t.next := by
      simp only [step, Xht.set, setNode]; split <;> rfl
    exact ⟨p.nodup_iff.mpr h.nodup, fun b hb => by rw [hn]; exact h.made b (p.mem_iff.mp hb), ow⟩
  | store key val =>
    cases val with
    | none => exact h
    | some v =>
      by_cases hk : key.length = 0
      · rw [show step t (.store key (some v)) = t by simp only [step, store, hk, if_true]]
        exact h
      · have p := free_setNode (t := t) hp ⟨.own t.next, cstr key⟩ (some ⟨.own (t.next + 1), cstr v⟩) true
        have e : step t (.store key (some v)) = { setNode t ⟨.own t.next, cstr key⟩ (some ⟨.own (t.next + 1), cstr v⟩) true with
            next := t.next + 2 } := by simp only [step, store, hk, if_false]
        rw [e] at ow ⊢
        replace p : (free { setNode t ⟨.own t.next, cstr key⟩ (some ⟨.own (t.next + 1), cstr v⟩) true with
            next := t.next + 2 }).Perm (free t ++ [.own t.next, .own (t.next + 1)]) := p
        refine ⟨p.nodup_iff.mpr (List.nodup_append.mpr ⟨h.nodup, by simp, ?_⟩), fun b hb => ?_, ow⟩
        · intro a ha b hb e
          subst e
          obtain ⟨n, hn, rfl⟩ := h.made a ha
          simp only [List.mem_cons, Addr.own.injEq, List.not_mem_nil, or_false] at hb
          omega
        · rcases List.mem_append.mp (p.mem_iff.mp hb) with m | m
          · exact (h.made b m).imp fun n ⟨hn, en⟩ => ⟨Nat.lt_trans hn (by simp), en⟩
          · simp only [List.mem_cons, List.not_mem_nil, or_false] at m
            rcases m with rfl | rfl
            · exact ⟨t.next, by simp, rfl⟩
            · exact ⟨t.next + 1, by simp, rfl⟩

theorem Ledger.new (p : Nat) : Ledger (Xht.new p) := by
  have h0 : free (Xht.new p) = [] := by
    simp only [free, Xht.new, List.nil_append, List.flatMap_eq_nil_iff]
    intro i _; simp [freeNode]
  refine ⟨by rw [h0]; exact .nil, fun a ha => (by rw [h0] at ha; cases ha), ?_⟩
  intro i n hn _
  simp [Xht.new] at hn; subst hn; simp

theorem fold_keeps (ops : List (Op × Luck)) : ∀ {t : Table}, Inv t → Ledger t → Inv (ops.foldl stepF t) ∧ Ledger (ops.foldl stepF t) := by
  induction ops with
  | nil => exact fun i h => ⟨i, h⟩
  | cons o ops ih =>
    intro t i h
    rcases stepF_cases t o.1 o.2 with e | ⟨_, r⟩
    · exact ih (by rw [show stepF t o = step t o.1 from e]; exact inv_step i _) (by rw [show stepF t o = step t o.1 from e]; exact h.set i.prime _)
    · exact ih (i.congr r.zen) (h.refused r)

/-! ### C110 -/

/-- C110, values: whatever allocations fail, each call is carried out or not at all; there is a part of
the calls, with all that got memory in it, such that every key has the value that the last call of that part for
the key left, if the table could be made. -/
theorem C110_values (p : Nat) (hp : 0 < p) (ops : List (Op × Luck)) :
    ∃ done : List (Op × Luck), done.Sublist ops ∧ (ops.filter (fun o => o.2 = {})).Sublist done ∧
      ∀ k, (getF (runF (newF true true p) ops) k).map view = lastFor k (done.map (·.1)) := by
  have gen : ∀ (ops : List (Op × Luck)) (t : Table), Inv t → ∃ done : List (Op × Luck), done.Sublist ops ∧
      (ops.filter (fun o => o.2 = {})).Sublist done ∧
      ∀ k, (get (ops.foldl stepF t) k).map view = (done.map (·.1)).foldl (effect k) ((get t k).map view) := by
    intro ops
    induction ops with
    | nil => exact fun t _ => ⟨[], .slnil, .slnil, fun _ => rfl⟩
    | cons o ops ih =>
      intro t i
      rcases stepF_cases t o.1 o.2 with e | ⟨hl, r⟩
      · replace e : stepF t o = step t o.1 := e
        obtain ⟨done, h1, h2, h3⟩ := ih (stepF t o) (by rw [e]; exact inv_step i _)
        refine ⟨o :: done, .cons_cons o h1, ?_, fun k => ?_⟩
        · rw [List.filter_cons]
          split
          · exact .cons_cons o h2
          · exact .cons o h2
        · rw [List.foldl_cons, h3, e, get_step i]
          rfl
      · replace r : Refused o.2 t (stepF t o) := r
        obtain ⟨done, h1, h2, h3⟩ := ih (stepF t o) (i.congr r.zen)
        refine ⟨done, .cons o h1, ?_, fun k => ?_⟩
        · rw [List.filter_cons, if_neg (by simpa using hl)]
          exact h2
        · rw [List.foldl_cons, h3, get_congr r.zen]
  obtain ⟨done, h1, h2, h3⟩ := gen ops (new p) (inv_new p hp)
  refine ⟨done, h1, h2, fun k => ?_⟩
  have h0 : get (new p) k = none := by
    simp [get_eq, lookup, new, keyIs]
  have := h3 k
  rw [h0] at this
  exact this

/-- C110, values: a table that could not be made is empty. -/
theorem C110_null {table array : Bool} (h : table = false ∨ array = false) (p : Nat) (ops : List (Op × Luck)) (k : Bytes) :
    getF (runF (newF table array p) ops) k = none ∧ walkF (runF (newF table array p) ops) = [] ∧ freeF (runF (newF table array p) ops) = [] := by
  have : newF table array p = none := by
    rcases h with rfl | rfl <;> simp [newF]
  rw [this]
  exact ⟨rfl, rfl, rfl⟩

/-- C110: walking comes to each key once, with the value `xht_get` gives. -/
theorem C110_walk (p : Nat) (hp : 0 < p) (ops : List (Op × Luck)) (k : Bytes) :
    ((walkF (runF (newF true true p) ops)).filter (fun kv => kv.1.str == k)).map (·.2) =
      (getF (runF (newF true true p) ops) k).toList :=
  walk_filter (fold_keeps ops (inv_new p hp) (.new p)).1 k

/-- C110, memory: nothing is freed twice, and only copies the table made. -/
theorem C110_freed_once (p : Nat) (hp : 0 < p) (ops : List (Op × Luck)) :
    (freeF (runF (newF true true p) ops)).Nodup ∧
    ∀ a ∈ freeF (runF (newF true true p) ops), a ∈ copiesF (runF (newF true true p) ops) := by
  have h := (fold_keeps ops (inv_new p hp) (.new p)).2
  exact ⟨h.nodup, fun a ha => range_own.mpr (h.made a ha)⟩

/-- C110, memory: no entry of the table refers to memory that was freed. -/
theorem C110_no_dangling (p : Nat) (hp : 0 < p) (ops : List (Op × Luck)) {t : Table} (ht : runF (newF true true p) ops = some t)
    (kv : Obj × Obj) (m : kv ∈ walk t) : kv.1.addr ∉ t.freed ∧ kv.2.addr ∉ t.freed := by
  have h := (fold_keeps ops (inv_new p hp) (.new p)).2
  replace ht : List.foldl stepF (new p) ops = t := Option.some.inj ht
  rw [ht] at h
  obtain ⟨nd, made, own⟩ := h
  rw [free_eq] at nd made
  have user : ∀ a, Addr.user a ∉ t.freed := fun a ha => by
    obtain ⟨_, _, e⟩ := made _ (List.mem_append_left _ ha)
    cases e
  rw [walk_eq, List.mem_flatMap] at m
  obtain ⟨i, hi, m⟩ := m
  rw [List.mem_filterMap] at m
  obtain ⟨n, hn, he⟩ := m
  unfold entryOf at he
  split at he
  · rename_i k v hk hv
    simp only [Option.some.injEq] at he
    subst he
    cases hf : n.flag with
    | false =>
      obtain ⟨a, ha⟩ := (own i n hn hf).1 k hk
      obtain ⟨b, hb⟩ := (own i n hn hf).2 v hv
      simp only [ha, hb]
      exact ⟨user a, user b⟩
    | true =>
      have hl : ∀ x ∈ freeNode n, x ∈ live t := by
        intro x hx
        rw [live, List.mem_flatMap]
        exact ⟨i, hi, List.mem_flatMap.2 ⟨n, hn, hx⟩⟩
      have hdis := List.nodup_append.1 nd
      exact ⟨fun hc => hdis.2.2 _ hc _ (hl _ (by simp [freeNode, hf, hk])) rfl,
        fun hc => hdis.2.2 _ hc _ (hl _ (by simp [freeNode, hf, hv])) rfl⟩
  · simp at he

/-- C110, memory, partial: if nodes get memory, all copies made are freed in the end.  Missing: calls that
store a copy and get no memory for a node (`C110_lost_counterexample`). -/
theorem C110_all_freed_partial (p : Nat) (hp : 0 < p) (ops : List (Op × Luck)) (hn : ∀ o ∈ ops, o.2.node = true) :
    (freeF (runF (newF true true p) ops)).Perm (copiesF (runF (newF true true p) ops)) := by
  have gen : ∀ (ops : List (Op × Luck)) (t : Table), 0 < t.prime → (∀ o ∈ ops, o.2.node = true) →
      (free t).Perm ((List.range t.next).map .own) → (free (ops.foldl stepF t)).Perm ((List.range (ops.foldl stepF t).next).map .own) := by
    intro ops
    induction ops with
    | nil => exact fun t _ _ h => h
    | cons o ops ih =>
      intro t hp hn h
      rcases stepF_cases t o.1 o.2 with e | ⟨_, r⟩
      · replace e : stepF t o = step t o.1 := e
        obtain ⟨n1, n2⟩ := free_step hp o.1 [] (by simpa using h)
        refine ih (stepF t o) (by rw [e, prime_step]; exact hp) (fun x m => hn x (by simp [m])) ?_
        rw [e, n1]
        simpa using n2
      · replace r : Refused o.2 t (stepF t o) := r
        refine ih (stepF t o) (by rw [r.zen.2]; exact hp) (fun x m => hn x (by simp [m])) ?_
        generalize stepF t o = u at r
        cases r with
        | kept => exact h
        | freed =>
          have e : (free { t with next := t.next + 1, freed := t.freed ++ [.own t.next] }).Perm (.own t.next :: free t) := by
            unfold free
            rw [List.append_assoc]
            exact List.perm_middle
          refine e.trans ((h.cons _).trans ?_)
          rw [List.range_succ, List.map_append]
          exact (List.perm_append_singleton (Addr.own t.next) ((List.range t.next).map Addr.own)).symm
        | lost hl =>
          rw [hn o (by simp)] at hl
          cases hl
  have h0 : free (new p) = [] := by
    simp only [free, new, List.nil_append, List.flatMap_eq_nil_iff]
    intro i _; simp [freeNode]
  exact gen ops (new p) hp hn (by rw [h0]; simp [new])

/-! ### Concrete cases -/

namespace Sample

/-- Two keys in a table with one bucket; the value of a third does not get memory, nor the second change of the first. -/
def refusals : List (Op × Luck) := [(.store [0x61] (some [1]), {}), (.store [0x62] (some [2]), {}), (.store [0x63] (some [3]), { val := false }),
  (.store [0x61] (some [4]), { node := false }), (.store [0x61] (some [5]), { key := false })]

end Sample

/-- A node is not needed for a key that has one. -/
example : ((getF (runF (newF true true 1) Sample.refusals) [0x61]).map view, (getF (runF (newF true true 1) Sample.refusals) [0x62]).map view,
      getF (runF (newF true true 1) Sample.refusals) [0x63]) = (some (.copy [4]), some (.copy [2]), none) ∧
    freeF (runF (newF true true 1) Sample.refusals) = [.own 4, .own 0, .own 1, .own 5, .own 6, .own 2, .own 3] := by decide +kernel

/-- C110: copies for which no node gets memory are lost. -/
theorem C110_lost_counterexample :
    freeF (runF (newF true true 1) [(.store [0x61] (some [1]), {}), (.store [0x62] (some [2]), { node := false })]) = [.own 0, .own 1] ∧
    copiesF (runF (newF true true 1) [(.store [0x61] (some [1]), {}), (.store [0x62] (some [2]), { node := false })]) =
      [.own 0, .own 1, .own 2, .own 3] := by decide +kernel

end Mdns.Xht
