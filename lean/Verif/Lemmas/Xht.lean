import Verif.Model.Xht
import Verif.Props.Hash

/-! Internal lemmas about the string table. -/

namespace Mdns.Xht

/-- Node holds this key. -/
def keyIs (k : Bytes) (n : Node) : Bool := match n.key with
  | some o => o.str == k
  | none => false

def lookup (ns : List Node) (k : Bytes) : Option Obj := (ns.find? (keyIs k)).bind (·.val)

theorem nodeFind_eq (ns : List Node) (k : Bytes) : nodeFind ns k = ns.findIdx? (keyIs k) := rfl

theorem findIdx_val (p : Node → Bool) (ns : List Node) :
    (match ns.findIdx? p with
      | none => none
      | some j => (ns.getD j {}).val) = (ns.find? p).bind (·.val) := by
  induction ns with
  | nil => simp
  | cons n ns ih =>
    simp only [List.findIdx?_cons, List.find?_cons]
    cases h : p n with
    | true => simp
    | false =>
      simp only [Bool.false_eq_true, if_false]
      rw [← ih]
      cases ns.findIdx? p <;> simp

theorem get_eq (t : Table) (k : Bytes) : get t k = lookup (t.zen (bucket k t.prime)) k := by
  simp only [get, lookup, nodeFind_eq]
  exact findIdx_val _ _

/-- No two nodes hold the same key. -/
def Distinct (ns : List Node) : Prop :=
  ns.Pairwise fun a b => ∀ x y, a.key = some x → b.key = some y → x.str ≠ y.str

theorem keyIs_iff (k : Bytes) (n : Node) : keyIs k n = true ↔ ∃ o, n.key = some o ∧ o.str = k := by
  unfold keyIs
  cases n.key <;> simp

@[simp] theorem keyIs_mk (k f o v) : keyIs k ⟨f, some o, v⟩ = (o.str == k) := rfl

theorem lookup_cons (n : Node) (ns : List Node) (k : Bytes) :
    lookup (n :: ns) k = if keyIs k n then n.val else lookup ns k := by
  simp only [lookup, List.find?_cons]
  cases keyIs k n <;> simp

theorem lookup_none_of_absent (ns : List Node) (k : Bytes) (h : ∀ n ∈ ns, keyIs k n = false) :
    lookup ns k = none := by
  induction ns with
  | nil => rfl
  | cons n ns ih =>
    rw [lookup_cons, h n (by simp)]
    simpa using ih (fun m hm => h m (by simp [hm]))

theorem lookup_set_found (ns : List Node) (key : Obj) (val : Option Obj) (f : Bool) (j : Nat)
    (h : nodeFind ns key.str = some j) (k : Bytes) :
    lookup (ns.set j ⟨f, some key, val⟩) k = if key.str = k then val else lookup ns k := by
  rw [nodeFind_eq] at h
  induction ns generalizing j with
  | nil => simp at h
  | cons n ns ih =>
    rw [List.findIdx?_cons] at h
    cases hn : keyIs key.str n with
    | true =>
      rw [hn] at h
      simp only [if_true, Option.some.injEq] at h
      subst h
      simp only [List.set_cons_zero, lookup_cons]
      by_cases hk : key.str = k
      · simp [keyIs, hk]
      · have : keyIs k n = false := by
          rw [Bool.eq_false_iff]; intro hc
          obtain ⟨o, ho, rfl⟩ := (keyIs_iff _ _).1 hc
          obtain ⟨o', ho', e⟩ := (keyIs_iff _ _).1 hn
          rw [ho] at ho'; cases ho'; exact hk e.symm
        simp [hk, this]
    | false =>
      rw [hn] at h
      simp only [Bool.false_eq_true, if_false, Option.map_eq_some_iff] at h
      obtain ⟨j', hj', rfl⟩ := h
      simp only [List.set_cons_succ, lookup_cons]
      rw [ih _ hj']
      by_cases hk : key.str = k
      · subst hk; simp [hn]
      · simp [hk]

theorem nodeFind_none (ns : List Node) (k : Bytes) (h : nodeFind ns k = none) :
    ∀ n ∈ ns, keyIs k n = false := by
  rw [nodeFind_eq, List.findIdx?_eq_none_iff] at h
  exact h

theorem lookup_set_empty (ns : List Node) (key : Obj) (val : Option Obj) (f : Bool) (j : Nat)
    (hd : Distinct ns)
    (h : ∀ n ∈ ns, keyIs key.str n = false) (he : emptyFind ns = some j) (k : Bytes) :
    lookup (ns.set j ⟨f, some key, val⟩) k = if key.str = k then val else lookup ns k := by
  unfold emptyFind at he
  induction ns generalizing j with
  | nil => simp at he
  | cons n ns ih =>
    rw [List.findIdx?_cons] at he
    have hd' := List.pairwise_cons.1 hd
    cases hv : n.val.isNone with
    | true =>
      rw [hv] at he
      simp only [if_true, Option.some.injEq] at he
      subst he
      simp only [List.set_cons_zero, lookup_cons]
      by_cases hk : key.str = k
      · simp [keyIs, hk]
      · have hkn : keyIs k ⟨f, some key, val⟩ = false := by simp [keyIs, hk]
        rw [hkn]
        simp only [Bool.false_eq_true, if_false, if_neg hk]
        cases hn : keyIs k n with
        | false => simp
        | true =>
          have : n.val = none := by simpa using hv
          simp only [if_true, this]
          apply lookup_none_of_absent
          intro m hm
          rw [Bool.eq_false_iff]; intro hc
          obtain ⟨o, ho, e⟩ := (keyIs_iff _ _).1 hc
          obtain ⟨o', ho', e'⟩ := (keyIs_iff _ _).1 hn
          exact hd'.1 m hm o' o ho' ho (by rw [e, e'])
    | false =>
      rw [hv] at he
      simp only [Bool.false_eq_true, if_false, Option.map_eq_some_iff] at he
      obtain ⟨j', hj', rfl⟩ := he
      simp only [List.set_cons_succ, lookup_cons]
      rw [ih _ hd'.2 (fun m hm => h m (by simp [hm])) hj']
      by_cases hk : key.str = k
      · subst hk; simp [h n (by simp)]
      · simp [hk]

theorem lookup_insert (ns : List Node) (key : Obj) (val : Option Obj) (f : Bool)
    (h : ∀ n ∈ ns, keyIs key.str n = false) (k : Bytes) :
    lookup (ns.take 1 ++ ⟨f, some key, val⟩ :: ns.drop 1) k
      = if key.str = k then val else lookup ns k := by
  cases ns with
  | nil =>
    simp only [List.take_nil, List.drop_nil, List.nil_append, lookup_cons, keyIs]
    simp
  | cons n ns =>
    simp only [List.take_succ_cons, List.take_zero, List.cons_append, List.nil_append,
      List.drop_succ_cons, List.drop_zero, lookup_cons]
    by_cases hk : key.str = k
    · subst hk; simp [h n (by simp)]
    · simp [hk]

/-- Invariant of a table. -/
structure Inv (t : Table) : Prop where
  prime : 0 < t.prime
  home : ∀ i, ∀ n ∈ t.zen i, ∀ k, n.key = some k → bucket k.str t.prime = i
  distinct : ∀ i, Distinct (t.zen i)

theorem inv_new (p : Nat) (hp : 0 < p) : Inv (new p) := by
  refine ⟨hp, ?_, ?_⟩
  · intro i n hn k hk
    simp [new] at hn; subst hn; simp at hk
  · intro i; simp [new, Distinct]

@[simp] theorem setNode_prime (t key val f) : (setNode t key val f).prime = t.prime := by
  unfold setNode; dsimp only; split <;> rfl

/-- The bucket list that results from writing a key. -/
def newBucket (ns : List Node) (key : Obj) (val : Option Obj) (f : Bool) : List Node :=
  match (nodeFind ns key.str).or (emptyFind ns) with
  | some j => ns.set j ⟨f, some key, val⟩
  | none => ns.take 1 ++ ⟨f, some key, val⟩ :: ns.drop 1

theorem setNode_zen (t key val f) : (setNode t key val f).zen =
    upd t.zen (bucket key.str t.prime) (newBucket (t.zen (bucket key.str t.prime)) key val f) := by
  unfold setNode newBucket; dsimp only; split <;> rename_i h <;> simp [h]

theorem lookup_newBucket (ns key val f) (hd : Distinct ns) (k : Bytes) :
    lookup (newBucket ns key val f) k = if key.str = k then val else lookup ns k := by
  unfold newBucket
  cases hf : nodeFind ns key.str with
  | some j => simpa using lookup_set_found ns key val f j hf k
  | none =>
    have ha := nodeFind_none _ _ hf
    cases he : emptyFind ns with
    | some j => simpa using lookup_set_empty ns key val f j hd ha he k
    | none => simpa using lookup_insert ns key val f ha k

theorem mem_newBucket (ns key val f) (m : Node) (hm : m ∈ newBucket ns key val f) :
    m = ⟨f, some key, val⟩ ∨ m ∈ ns := by
  unfold newBucket at hm
  split at hm
  · rcases List.mem_or_eq_of_mem_set hm with h | h
    · exact .inr h
    · exact .inl h
  · simp only [List.mem_append, List.mem_cons] at hm
    rcases hm with h | h | h
    · exact .inr (List.mem_of_mem_take h)
    · exact .inl h
    · exact .inr (List.mem_of_mem_drop h)

theorem pairwise_set {α} {R : α → α → Prop} (hs : ∀ a b, R a b → R b a) (l : List α) (j : Nat)
    (a : α) (h : l.Pairwise R)
    (ha : ∀ i (hi : i < l.length), i ≠ j → R a l[i]) : (l.set j a).Pairwise R := by
  rw [List.pairwise_iff_getElem] at *
  intro x y hx hy hxy
  simp only [List.length_set] at hx hy
  rw [List.getElem_set, List.getElem_set]
  split
  · split
    · omega
    · exact ha y hy (by omega)
  · split
    · exact hs _ _ (ha x hx (by omega))
    · exact h x y hx hy hxy

theorem distinct_newBucket (ns key val f) (hd : Distinct ns) : Distinct (newBucket ns key val f) := by
  have hsym : ∀ a b : Node, (∀ x y, a.key = some x → b.key = some y → x.str ≠ y.str) →
      (∀ x y, b.key = some x → a.key = some y → x.str ≠ y.str) := by
    intro a b h x y hx hy he
    exact h y x hy hx he.symm
  unfold newBucket
  cases hf : nodeFind ns key.str with
  | some j =>
    simp only [Option.some_or]
    refine pairwise_set hsym _ _ _ hd ?_
    intro i hi hij x y hx hy he
    simp only [Option.some.injEq] at hx
    subst hx
    rw [nodeFind_eq, List.findIdx?_eq_some_iff_getElem] at hf
    obtain ⟨hj, hkj, _⟩ := hf
    obtain ⟨o, ho, e⟩ := (keyIs_iff _ _).1 hkj
    have hp := List.pairwise_iff_getElem.1 hd
    rcases Nat.lt_or_gt_of_ne hij with hlt | hgt
    · exact hp i j hi hj hlt y o hy ho (by rw [e, he])
    · exact hp j i hj hi hgt o y ho hy (by rw [e, he])
  | none =>
    have ha := nodeFind_none _ _ hf
    have hfresh : ∀ n ∈ ns, ∀ y, n.key = some y → key.str ≠ y.str := by
      intro n hn y hy he
      have := ha n hn
      rw [Bool.eq_false_iff] at this
      exact this ((keyIs_iff _ _).2 ⟨y, hy, he.symm⟩)
    cases he : emptyFind ns with
    | some j =>
      simp only [Option.none_or]
      refine pairwise_set hsym _ _ _ hd ?_
      intro i hi hij x y hx hy
      simp only [Option.some.injEq] at hx
      subst hx
      exact hfresh _ (List.getElem_mem hi) y hy
    | none =>
      simp only [Option.none_or]
      cases ns with
      | nil => simp [Distinct]
      | cons n ns =>
        have hd' := List.pairwise_cons.1 hd
        simp only [List.take_succ_cons, List.take_zero, List.cons_append, List.nil_append,
          List.drop_succ_cons, List.drop_zero]
        refine List.pairwise_cons.2 ⟨?_, List.pairwise_cons.2 ⟨?_, hd'.2⟩⟩
        · intro m hm
          rcases List.mem_cons.1 hm with rfl | hm
          · intro x y hx hy he
            simp only [Option.some.injEq] at hy
            subst hy
            exact hfresh n (by simp) x hx he.symm
          · exact hd'.1 m hm
        · intro m hm x y hx hy
          simp only [Option.some.injEq] at hx
          subst hx
          exact hfresh m (by simp [hm]) y hy

theorem inv_setNode {t : Table} (hi : Inv t) (key val f) : Inv (setNode t key val f) := by
  refine ⟨by simpa using hi.prime, ?_, ?_⟩
  · intro i n hn k hk
    rw [setNode_zen] at hn
    simp only [setNode_prime]
    by_cases h : i = bucket key.str t.prime
    · subst h
      rw [upd_same] at hn
      rcases mem_newBucket _ _ _ _ _ hn with rfl | hn
      · simp only [Option.some.injEq] at hk
        subst hk; rfl
      · exact hi.home _ n hn k hk
    · rw [upd_other _ _ _ _ h] at hn
      exact hi.home i n hn k hk
  · intro i
    rw [setNode_zen]
    by_cases h : i = bucket key.str t.prime
    · subst h
      rw [upd_same]
      exact distinct_newBucket _ _ _ _ (hi.distinct _)
    · rw [upd_other _ _ _ _ h]
      exact hi.distinct i

theorem get_setNode {t : Table} (hi : Inv t) (key val f) (k : Bytes) :
    get (setNode t key val f) k = if key.str = k then val else get t k := by
  rw [get_eq, get_eq, setNode_zen, setNode_prime]
  by_cases h : bucket k t.prime = bucket key.str t.prime
  · rw [h, upd_same, lookup_newBucket _ _ _ _ (hi.distinct _)]
  · rw [upd_other _ _ _ _ h]
    have : key.str ≠ k := by intro e; subst e; exact h rfl
    simp [this]

theorem inv_store {t : Table} (hi : Inv t) (k v) : Inv (store t k v) := by
  unfold store
  split
  · exact hi
  · split
    · exact hi
    · obtain ⟨a, b, c⟩ := inv_setNode hi ⟨.own t.next, cstr k⟩ (some ⟨.own (t.next + 1), cstr ‹_›⟩) true
      exact ⟨a, b, c⟩

theorem inv_step {t : Table} (hi : Inv t) (op : Op) : Inv (step t op) := by
  cases op with
  | set a k v => exact inv_setNode hi _ _ _
  | store k v => exact inv_store hi k v

theorem inv_run (ops : List Op) : ∀ {t : Table}, Inv t → Inv (run t ops) := by
  induction ops with
  | nil => intro t h; exact h
  | cons op ops ih => intro t h; exact ih (inv_step h op)

theorem get_store {t : Table} (hi : Inv t) (key : Bytes) (val : Option Bytes) (k : Bytes) :
    get (store t key val) k =
      match val with
      | none => get t k
      | some v => if key.length = 0 then get t k
        else if cstr key = k then some ⟨.own (t.next + 1), cstr v⟩ else get t k := by
  cases val with
  | none => rfl
  | some v =>
    simp only [store]
    split
    · rfl
    · rename_i h
      exact get_setNode hi ⟨.own t.next, cstr key⟩ (some ⟨.own (t.next + 1), cstr v⟩) true k

/-! ### Walking -/

def entryOf (n : Node) : Option (Obj × Obj) :=
  match n.key, n.val with
  | some k, some v => some (k, v)
  | _, _ => none

theorem walk_eq (t : Table) : walk t = (List.range t.prime).flatMap fun i => (t.zen i).filterMap entryOf :=
  rfl

theorem filter_bucket (ns : List Node) (hd : Distinct ns) (k : Bytes) :
    ((ns.filterMap entryOf).filter (fun kv => kv.1.str == k)).map (·.2) = (lookup ns k).toList := by
  induction ns with
  | nil => rfl
  | cons n ns ih =>
    have hd' := List.pairwise_cons.1 hd
    have ih := ih hd'.2
    rw [lookup_cons]
    cases hn : keyIs k n with
    | false =>
      simp only [Bool.false_eq_true, if_false]
      rw [← ih]
      rw [List.filterMap_cons]
      cases he : entryOf n with
      | none => rfl
      | some kv =>
        have : ¬ kv.1.str = k := by
          intro hc
          unfold entryOf at he
          split at he
          · rename_i k' v' hk' hv'
            simp only [Option.some.injEq] at he
            subst he
            rw [Bool.eq_false_iff] at hn
            exact hn ((keyIs_iff _ _).2 ⟨_, hk', hc⟩)
          · simp at he
        simp [this]
    | true =>
      obtain ⟨o, ho, rfl⟩ := (keyIs_iff _ _).1 hn
      have habs : lookup ns o.str = none := by
        apply lookup_none_of_absent
        intro m hm
        rw [Bool.eq_false_iff]; intro hc
        obtain ⟨o', ho', e'⟩ := (keyIs_iff _ _).1 hc
        exact hd'.1 m hm o o' ho ho' e'.symm
      rw [habs] at ih
      simp only [Option.toList_none, List.map_eq_nil_iff] at ih
      rw [List.filterMap_cons]
      cases hv : n.val with
      | none => simp [entryOf, ho, hv, ih]
      | some v => simp [entryOf, ho, hv, ih]

theorem flatMap_single {α} (f : Nat → List α) (b : Nat) (p : Nat) (hb : b < p)
    (h : ∀ i, i ≠ b → f i = []) : (List.range p).flatMap f = f b := by
  induction p with
  | zero => omega
  | succ p ih =>
    rw [List.range_succ, List.flatMap_append, List.flatMap_singleton]
    by_cases hbp : b < p
    · rw [ih hbp, h p (by omega)]; simp
    · have : b = p := by omega
      subst this
      have : (List.range b).flatMap f = [] := by
        rw [List.flatMap_eq_nil_iff]
        intro x hx
        exact h x (by have := List.mem_range.1 hx; omega)
      rw [this]; simp

theorem walk_filter {t : Table} (hi : Inv t) (k : Bytes) :
    ((walk t).filter (fun kv => kv.1.str == k)).map (·.2) = (get t k).toList := by
  rw [walk_eq, List.filter_flatMap, List.map_flatMap, get_eq,
    ← filter_bucket _ (hi.distinct _)]
  apply flatMap_single _ _ _ (bucket_lt k _ hi.prime)
  intro i hne
  rw [List.map_eq_nil_iff, List.filter_eq_nil_iff]
  intro kv hkv
  rw [List.mem_filterMap] at hkv
  obtain ⟨n, hn, he⟩ := hkv
  unfold entryOf at he
  split at he
  · rename_i k' v' hk' hv'
    simp only [Option.some.injEq] at he
    subst he
    simp only [beq_iff_eq]
    intro hc
    have := hi.home i n hn k' hk'
    rw [hc] at this
    exact hne this.symm
  · simp at he

/-! ### Ownership -/

/-- Everything the table currently owns. -/
def live (t : Table) : List Addr := (List.range t.prime).flatMap fun i => (t.zen i).flatMap freeNode

theorem free_eq (t : Table) : free t = t.freed ++ live t := rfl

theorem perm_flatMap_upd (f : List Node → List Addr) (z : Nat → List Node) (b : Nat) (ns : List Node)
    (p : Nat) (hb : b < p) (x y : List Addr)
    (h : (x ++ f ns).Perm (f (z b) ++ y)) :
    (x ++ (List.range p).flatMap (fun i => f (upd z b ns i))).Perm
      ((List.range p).flatMap (fun i => f (z i)) ++ y) := by
  induction p with
  | zero => omega
  | succ p ih =>
    rw [List.range_succ, List.flatMap_append, List.flatMap_append, List.flatMap_singleton,
      List.flatMap_singleton]
    by_cases hbp : b < p
    · rw [upd_other _ _ _ _ (by omega : p ≠ b)]
      have := ih hbp
      rw [← List.append_assoc]
      refine (this.append_right _).trans ?_
      rw [List.append_assoc, List.append_assoc]
      exact List.Perm.append_left _ List.perm_append_comm
    · have : b = p := by omega
      subst this
      rw [upd_same]
      have e : (List.range b).flatMap (fun i => f (upd z b ns i)) = (List.range b).flatMap (fun i => f (z i)) := by
        simp only [List.flatMap_def]
        congr 1
        apply List.map_congr_left
        intro i hi
        have := List.mem_range.1 hi
        rw [upd_other _ _ _ _ (by omega)]
      rw [e]
      generalize (List.range b).flatMap (fun i => f (z i)) = A
      have h1 : (x ++ (A ++ f ns)).Perm (A ++ (x ++ f ns)) := by
        rw [← List.append_assoc, ← List.append_assoc]
        exact List.perm_append_comm.append_right _
      refine h1.trans ?_
      rw [List.append_assoc]
      exact List.Perm.append_left _ h

theorem perm_set (ns : List Node) (j : Nat) (hj : j < ns.length) (n : Node) :
    (freeNode (ns.getD j {}) ++ (ns.set j n).flatMap freeNode).Perm
      (ns.flatMap freeNode ++ freeNode n) := by
  induction ns generalizing j with
  | nil => simp at hj
  | cons m ns ih =>
    cases j with
    | zero =>
      simp only [List.getD_cons_zero, List.set_cons_zero, List.flatMap_cons, List.append_assoc]
      exact List.Perm.append_left _ List.perm_append_comm
    | succ j =>
      simp only [List.length_cons, Nat.add_lt_add_iff_right] at hj
      simp only [List.getD_cons_succ, List.set_cons_succ, List.flatMap_cons]
      have := ih j hj
      rw [List.append_assoc (freeNode m)]
      refine List.Perm.trans ?_ (List.Perm.append_left _ this)
      rw [← List.append_assoc, ← List.append_assoc]
      exact List.perm_append_comm.append_right _

/-- Writing a key moves the old copies of the slot from owned to freed and adds the new ones. -/
theorem free_setNode {t : Table} (hp : 0 < t.prime) (key val f) :
    (free (setNode t key val f)).Perm (free t ++ freeNode ⟨f, some key, val⟩) := by
  rw [free_eq, free_eq]
  have hb := bucket_lt key.str t.prime hp
  unfold setNode
  simp only
  cases ho : (nodeFind (t.zen (bucket key.str t.prime)) key.str).or
      (emptyFind (t.zen (bucket key.str t.prime))) with
  | some j =>
    simp only [live]
    rw [List.append_assoc, List.append_assoc]
    refine List.Perm.append_left _ ?_
    apply perm_flatMap_upd (fun ns => ns.flatMap freeNode) _ _ _ _ hb
    apply perm_set
    cases hf : nodeFind (t.zen (bucket key.str t.prime)) key.str with
    | some i =>
      rw [hf] at ho; simp at ho; subst ho
      rw [nodeFind_eq, List.findIdx?_eq_some_iff_getElem] at hf
      exact hf.1
    | none =>
      rw [hf] at ho; simp at ho
      rw [emptyFind, List.findIdx?_eq_some_iff_getElem] at ho
      exact ho.1
  | none =>
    simp only [live]
    rw [List.append_assoc]
    refine List.Perm.append_left _ ?_
    have := perm_flatMap_upd (fun ns => ns.flatMap freeNode) t.zen _
      ((t.zen (bucket key.str t.prime)).take 1 ++ ⟨f, some key, val⟩ ::
        (t.zen (bucket key.str t.prime)).drop 1) _ hb [] (freeNode ⟨f, some key, val⟩) ?_
    · simpa using this
    · simp only [List.nil_append]
      generalize t.zen (bucket key.str t.prime) = ns
      rw [List.flatMap_append, List.flatMap_cons]
      conv => rhs; rw [← List.take_append_drop 1 ns, List.flatMap_append, List.append_assoc]
      exact List.Perm.append_left _ List.perm_append_comm

end Mdns.Xht
