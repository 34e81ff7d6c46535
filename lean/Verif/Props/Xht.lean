import Verif.Lemmas.Xht

/-!
# C14, C15, C16: the string table

The specification does not mention buckets, nodes or slots: it is "the last
call made for this key decides".
-/

namespace Mdns.Xht

/-- What a caller sees of a stored value: the pointer that was handed to
`xht_set`, or the text of the copy made by `xht_store`. -/
inductive View where
  | ptr (addr : Nat) (str : Bytes)
  | copy (str : Bytes)
deriving DecidableEq, Repr

def view (o : Obj) : View :=
  match o.addr with
  | .user n => .ptr n o.str
  | .own _ => .copy o.str

/-- Spec: effect of one call on the value associated with `k`. -/
def effect (k : Bytes) (cur : Option View) : Op → Option View
  | .set _ key val => if key = k then val.map (fun v => .ptr v.1 v.2) else cur
  | .store key val =>
    match val with
    | none => cur
    | some v => if key ≠ [] ∧ cstr key = k then some (.copy (cstr v)) else cur

/-- Spec: the value associated with `k` after a sequence of calls. -/
def lastFor (k : Bytes) (ops : List Op) : Option View := ops.foldl (effect k) none

theorem get_step {t : Table} (hi : Inv t) (op : Op) (k : Bytes) :
    (get (step t op) k).map view = effect k ((get t k).map view) op := by
  cases op with
  | set a key val =>
    simp only [step, set, get_setNode hi, effect]
    split
    · cases val <;> rfl
    · rfl
  | store key val =>
    simp only [step, get_store hi, effect]
    cases val with
    | none => rfl
    | some v =>
      simp only
      by_cases hk : key = []
      · simp [hk]
      · have : key.length ≠ 0 := by simpa using hk
        simp only [this, if_false, hk, not_false_eq_true, true_and, ne_eq]
        split <;> rfl

/-- **C14.** After any sequence of `xht_set`/`xht_store` calls on a new table of
any size, `xht_get` returns what the last call for that key left. -/
theorem C14_table_is_a_map (p : Nat) (hp : 0 < p) (ops : List Op) (k : Bytes) :
    (get (run (new p) ops) k).map view = lastFor k ops := by
  have gen : ∀ (ops : List Op) (t : Table), Inv t →
      (get (run t ops) k).map view = ops.foldl (effect k) ((get t k).map view) := by
    intro ops
    induction ops with
    | nil => intro t _; rfl
    | cons op ops ih =>
      intro t h
      have := ih (step t op) (inv_step h op)
      simp only [run, List.foldl_cons] at this ⊢
      rw [this, get_step h]
  have h0 : get (new p) k = none := by
    simp [get_eq, lookup, new, keyIs]
  rw [gen ops _ (inv_new p hp), h0]
  rfl

/-- A case with one bucket (all keys collide), a cleared key whose slot is
reused, and an overwritten copy. -/
example : (get (run (new 1) [.store [0x61] (some [1]), .set 7 [0x62] (some (8, [2])),
    .set 9 [0x62] none, .store [0x63] (some [3]), .store [0x61] (some [4])]) [0x61]).map view
    = some (.copy [4]) := by decide +kernel

/-- **C16.** For every key, the calls `xht_walk` makes for that key are exactly
one call with the value `xht_get` would return, or none if there is no value. -/
theorem C16_walk_visits_each_once (p : Nat) (hp : 0 < p) (ops : List Op) (k : Bytes) :
    ((walk (run (new p) ops)).filter (fun kv => kv.1.str == k)).map (·.2)
      = (get (run (new p) ops) k).toList :=
  walk_filter (inv_run ops (inv_new p hp)) k

example : (walk (run (new 1) [.store [0x61] (some [1]), .set 7 [0x62] (some (8, [2])),
    .set 9 [0x62] none, .store [0x63] (some [3])])).map (fun kv => (kv.1.str, kv.2.str))
    = [([0x61], [1]), ([0x63], [3])] := by decide +kernel

/-! ### Ownership -/

/-- Spec: does this call make copies (a key and a value)? -/
def copies : Op → Nat
  | .set .. => 0
  | .store key val => if key ≠ [] ∧ val.isSome then 2 else 0

/-- Spec: the allocations made by a history, in order. -/
def allocated (ops : List Op) : List Addr :=
  (List.range (ops.map copies).sum).map .own

theorem free_step {t : Table} (hp : 0 < t.prime) (op : Op) (l : List Addr)
    (h : (free t).Perm ((List.range t.next).map .own ++ l)) :
    (step t op).next = t.next + copies op ∧
    (free (step t op)).Perm ((List.range (t.next + copies op)).map .own ++ l) := by
  cases op with
  | set a key val =>
    have hn : (step t (.set a key val)).next = t.next := by
      simp only [step, set, setNode]; split <;> rfl
    refine ⟨hn, ?_⟩
    have := free_setNode hp ⟨.user a, key⟩ (val.map fun v => ⟨.user v.1, v.2⟩) false
    simp only [freeNode, Bool.false_eq_true, if_false, List.append_nil] at this
    exact this.trans h
  | store key val =>
    cases val with
    | none => simpa [step, store, copies] using h
    | some v =>
      by_cases hk : key = []
      · subst hk; simpa [step, store, copies] using h
      · have hl : key.length ≠ 0 := by simpa using hk
        have hc : copies (.store key (some v)) = 2 := by simp [copies, hk]
        rw [hc]
        refine ⟨by simp only [step, store, hl, if_false], ?_⟩
        simp only [step, store, hl, if_false]
        have := free_setNode hp ⟨.own t.next, cstr key⟩ (some ⟨.own (t.next + 1), cstr v⟩) true
        refine List.Perm.trans this ?_
        simp only [freeNode, if_true, Option.map_some, Option.toList_some, List.range_succ,
          List.map_append, List.map_cons, List.map_nil, List.append_assoc, List.cons_append,
          List.nil_append]
        refine (h.append_right _).trans ?_
        rw [List.append_assoc]
        exact List.Perm.append_left _ List.perm_append_comm

theorem prime_step (t op) : (step t op).prime = t.prime := by
  cases op with
  | set a k v => exact setNode_prime ..
  | store k v =>
    simp only [step, store]
    split
    · rfl
    · split
      · rfl
      · exact setNode_prime ..

theorem free_run (ops : List Op) : ∀ (t : Table), 0 < t.prime →
    (free t).Perm ((List.range t.next).map .own) →
    (run t ops).next = t.next + (ops.map copies).sum ∧
    (free (run t ops)).Perm ((List.range (t.next + (ops.map copies).sum)).map .own) := by
  induction ops with
  | nil => intro t _ h; exact ⟨rfl, h⟩
  | cons op ops ih =>
    intro t hp h
    obtain ⟨h1, h2⟩ := free_step hp op [] (by simpa using h)
    simp only [List.append_nil] at h2
    rw [← h1] at h2
    have := ih (step t op) (by rw [prime_step]; exact hp) h2
    rw [h1, Nat.add_assoc] at this
    simpa only [run, List.foldl_cons, List.map_cons, List.sum_cons] using this

/-- **C15.** When the table is freed after any history, the list of everything
ever passed to `free` is a rearrangement of the list of all copies made: each
copy is freed exactly once and no caller memory is freed. -/
theorem C15_copies_freed_exactly_once (p : Nat) (hp : 0 < p) (ops : List Op) :
    (free (run (new p) ops)).Perm (allocated ops) := by
  have h0 : free (new p) = [] := by
    simp only [free, new, List.nil_append, List.flatMap_eq_nil_iff]
    intro i _; simp [freeNode]
  have := (free_run ops (new p) hp (by rw [h0]; simp [new])).2
  simpa [allocated, new] using this

theorem allocated_nodup (ops : List Op) : (allocated ops).Nodup := by
  unfold allocated
  rw [List.Nodup, List.pairwise_map]
  exact List.Pairwise.imp (fun h h' => h (by cases h'; rfl)) (List.nodup_range (n := _))

theorem C15_no_double_free (p : Nat) (hp : 0 < p) (ops : List Op) :
    (free (run (new p) ops)).Nodup :=
  (C15_copies_freed_exactly_once p hp ops).nodup_iff.2 (allocated_nodup ops)

/-- Nodes without the ownership flag only hold caller memory. -/
def OwnFlag (t : Table) : Prop := ∀ i, ∀ n ∈ t.zen i, n.flag = false →
  (∀ k, n.key = some k → ∃ a, k.addr = .user a) ∧ (∀ v, n.val = some v → ∃ a, v.addr = .user a)

theorem ownFlag_setNode {t : Table} (h : OwnFlag t) (key val f)
    (hk : f = false → (∃ a, key.addr = .user a) ∧ ∀ v, val = some v → ∃ a, v.addr = .user a) :
    OwnFlag (setNode t key val f) := by
  intro i n hn hf
  rw [setNode_zen] at hn
  by_cases hi : i = bucket key.str t.prime
  · subst hi
    rw [upd_same] at hn
    rcases mem_newBucket _ _ _ _ _ hn with rfl | hn
    · obtain ⟨h1, h2⟩ := hk hf
      exact ⟨fun k hk => by cases hk; exact h1, fun v hv => h2 v hv⟩
    · exact h _ n hn hf
  · rw [upd_other _ _ _ _ hi] at hn
    exact h i n hn hf

theorem ownFlag_run (ops : List Op) : ∀ t, OwnFlag t → OwnFlag (run t ops) := by
  induction ops with
  | nil => intro t h; exact h
  | cons op ops ih =>
    intro t h
    apply ih
    cases op with
    | set a k v =>
      apply ownFlag_setNode h
      intro _
      refine ⟨⟨a, rfl⟩, ?_⟩
      intro w hw
      cases v with
      | none => simp at hw
      | some v => simp at hw; subst hw; exact ⟨_, rfl⟩
    | store k v =>
      simp only [step, store]
      split
      · exact h
      · split
        · exact h
        · have := ownFlag_setNode h ⟨.own t.next, cstr k⟩ (some ⟨.own (t.next + 1), cstr ‹_›⟩) true
            (by simp)
          exact this

/-- **C15.** No entry of the table refers to memory that was already freed. -/
theorem C15_no_dangling (p : Nat) (hp : 0 < p) (ops : List Op) (kv : Obj × Obj)
    (h : kv ∈ walk (run (new p) ops)) :
    kv.1.addr ∉ (run (new p) ops).freed ∧ kv.2.addr ∉ (run (new p) ops).freed := by
  have hof : OwnFlag (run (new p) ops) := by
    apply ownFlag_run
    intro i n hn _
    simp [new] at hn; subst hn; simp
  have hnd := C15_no_double_free p hp ops
  have hperm := C15_copies_freed_exactly_once p hp ops
  generalize run (new p) ops = t at *
  rw [free_eq] at hnd hperm
  have huser : ∀ a, Addr.user a ∉ t.freed := by
    intro a ha
    have : Addr.user a ∈ allocated ops := hperm.subset (List.mem_append_left _ ha)
    simp [allocated] at this
  rw [walk_eq, List.mem_flatMap] at h
  obtain ⟨i, hi, h⟩ := h
  rw [List.mem_filterMap] at h
  obtain ⟨n, hn, he⟩ := h
  unfold entryOf at he
  split at he
  · rename_i k v hk hv
    simp only [Option.some.injEq] at he
    subst he
    cases hf : n.flag with
    | false =>
      obtain ⟨a, ha⟩ := (hof i n hn hf).1 k hk
      obtain ⟨b, hb⟩ := (hof i n hn hf).2 v hv
      simp only [ha, hb]
      exact ⟨huser a, huser b⟩
    | true =>
      have hl : ∀ x ∈ freeNode n, x ∈ live t := by
        intro x hx
        rw [live, List.mem_flatMap]
        exact ⟨i, hi, List.mem_flatMap.2 ⟨n, hn, hx⟩⟩
      have hdis := List.nodup_append.1 hnd
      constructor
      · intro hc
        exact hdis.2.2 _ hc _ (hl _ (by simp [freeNode, hf, hk])) rfl
      · intro hc
        exact hdis.2.2 _ hc _ (hl _ (by simp [freeNode, hf, hv])) rfl
  · simp at he

/-- A history with two copies, one of them replaced: four allocations, all freed. -/
example : free (run (new 23) [.store [0x61] (some [1]), .store [0x61] (some [2]),
    .set 3 [0x62] (some (4, [5]))]) = [.own 0, .own 1, .own 2, .own 3] := by decide +kernel

end Mdns.Xht
