import Verif.Props.SdTxt

/-!
# C60: what `txt2sd` reads from any data
-/

namespace Mdns.SdTxt

open Mdns.Xht

/-! ### Specification (RFC 6763 6.1, 6.4) -/

/-- The strings of TXT data: a length and that many bytes each, up to the first
empty one or one that is cut off. -/
def strings : Bytes → List Bytes
  | [] => []
  | c :: rest =>
    if c = 0 ∨ rest.length < c.toNat then []
    else rest.take c.toNat :: strings (rest.drop c.toNat)
termination_by d => d.length
decreasing_by simp only [List.length_drop, List.length_cons]; omega

/-- The string, as far as a C program sees it, has the key `k` and the value `v`:
it is `k=v`, or `k` alone, with an empty value then. -/
def Pair (s k v : Bytes) : Prop :=
  (0x3D : UInt8) ∉ k ∧ (cstr s = k ∧ v = [] ∨ cstr s = k ++ 0x3D :: v)

/-- The value of `k`: that of the last string with this key. -/
def ValueOf (d k : Bytes) (r : Option Bytes) : Prop :=
  match r with
  | some v => ∃ pre s post, strings d = pre ++ s :: post ∧ Pair s k v ∧ ∀ s' ∈ post, ∀ v', ¬ Pair s' k v'
  | none => ∀ s ∈ strings d, ∀ v, ¬ Pair s k v

/-! ### Proofs -/

theorem pair_iff (s k v : Bytes) : Pair s k v ↔ splitEq (cstr s) = (k, v) := by
  unfold Pair
  constructor
  · rintro ⟨hk, ⟨h, rfl⟩ | h⟩
    · rw [h, splitEq_key k hk]
    · rw [h, splitEq_keyval k v hk]
  · intro h
    have hs : (cstr s).takeWhile (· != 0x3D) ++ (cstr s).dropWhile (· != 0x3D) = cstr s :=
      List.takeWhile_append_dropWhile
    unfold splitEq at h
    injection h with h1 h2
    have hk : (0x3D : UInt8) ∉ k := by
      intro hc
      rw [← h1] at hc
      have := List.all_takeWhile (p := (· != (0x3D : UInt8))) (l := cstr s)
      rw [List.all_eq_true] at this
      exact absurd (this _ hc) (by decide)
    refine ⟨hk, ?_⟩
    cases hd : (cstr s).dropWhile (· != 0x3D) with
    | nil =>
      rw [hd] at h2 hs
      left
      exact ⟨by rw [← hs, h1]; simp, h2.symm⟩
    | cons x r =>
      have hx : x = 0x3D := by
        have := List.head?_dropWhile_not (· != (0x3D : UInt8)) (cstr s)
        rw [hd] at this
        simpa using this
      rw [hd] at h2 hs
      right
      rw [← hs, h1, ← h2, hx]
      rfl

/-- The table after storing the strings one by one. -/
def stored (t : Table) (l : List Bytes) : Table :=
  l.foldl (fun t s => store t (splitEq (cstr s)).1 (some (splitEq (cstr s)).2)) t

theorem txtLoop_strings (t : Table) (d : Bytes) : txtLoop t d d.length = .ok (stored t (strings d)) := by
  fun_induction strings d generalizing t with
  | case1 => unfold txtLoop; simp [stored]
  | case2 c rest h =>
    rw [txtLoop]
    simp only [List.length_cons]
    rw [if_neg (by omega)]
    rcases h with h | h
    · subst h
      simp [stored]
    · rw [if_pos (by omega)]; rfl
  | case3 c rest h ih =>
    rw [txtLoop]
    simp only [List.length_cons]
    rw [if_neg (by omega), if_neg (by omega), if_neg (fun e => h (.inl e)), if_neg (by omega)]
    have e : rest.length + 1 - (c.toNat + 1) = (rest.drop c.toNat).length := by
      rw [List.length_drop]; omega
    rw [e, ih]
    rfl

theorem inv_stored (l : List Bytes) : ∀ t : Table, Inv t → Inv (stored t l) := by
  induction l with
  | nil => intro t h; exact h
  | cons s l ih => intro t h; exact ih _ (inv_store h _ _)

theorem splitEq_cstr (s : Bytes) : cstr (splitEq (cstr s)).1 = (splitEq (cstr s)).1 ∧
    cstr (splitEq (cstr s)).2 = (splitEq (cstr s)).2 := by
  have h := cstr_nul_free s
  refine ⟨cstr_of_nul_free fun hc => h ?_, cstr_of_nul_free fun hc => h ?_⟩
  · exact (List.takeWhile_sublist _).subset hc
  · exact (List.dropWhile_sublist _).subset ((List.drop_sublist _ _).subset hc)

theorem get_stored (l : List Bytes) (k : Bytes) (hk : k ≠ []) : ∀ t : Table, Inv t →
    (get (stored t l) k).map (·.str) =
      (((l.filter fun s => (splitEq (cstr s)).1 == k).getLast?).map fun s => (splitEq (cstr s)).2).or
        ((get t k).map (·.str)) := by
  induction l with
  | nil => intro t _; simp [stored]
  | cons s l ih =>
    intro t hi
    have := ih _ (inv_store hi (splitEq (cstr s)).1 (some (splitEq (cstr s)).2))
    rw [show stored t (s :: l) = stored (store t (splitEq (cstr s)).1 (some (splitEq (cstr s)).2)) l from rfl, this]
    rw [get_store hi]
    simp only [(splitEq_cstr s).1, (splitEq_cstr s).2]
    rw [List.filter_cons]
    by_cases h : (splitEq (cstr s)).1 = k
    · have hl : ¬ (splitEq (cstr s)).1.length = 0 := by rw [h]; simpa using hk
      rw [if_neg hl]
      simp only [h, if_true, beq_self_eq_true]
      cases hh : (l.filter fun s => (splitEq (cstr s)).1 == k).getLast? with
      | none =>
        have : (l.filter fun s => (splitEq (cstr s)).1 == k) = [] := by simpa using hh
        rw [this]; simp
      | some x => rw [List.getLast?_cons, hh]; simp
    · have h' : ((splitEq (cstr s)).1 == k) = false := by simpa using h
      simp only [h, if_false, h', Bool.false_eq_true]
      split <;> rfl

theorem last_split (l : List Bytes) (p : Bytes → Bool) (s : Bytes) (h : (l.filter p).getLast? = some s) :
    ∃ pre post, l = pre ++ s :: post ∧ p s = true ∧ ∀ x ∈ post, p x = false := by
  induction l with
  | nil => simp at h
  | cons a l ih =>
    rw [List.filter_cons] at h
    cases hl : (l.filter p).getLast? with
    | some x =>
      have : s = x := by
        split at h
        · rw [List.getLast?_cons, hl] at h; simpa using h.symm
        · rw [hl] at h; simpa using h.symm
      subst this
      obtain ⟨pre, post, e, h1, h2⟩ := ih hl
      exact ⟨a :: pre, post, by rw [e]; rfl, h1, h2⟩
    | none =>
      have he : l.filter p = [] := by simpa using hl
      split at h
      · rename_i hp
        rw [he] at h
        simp at h
        subst h
        refine ⟨[], l, rfl, hp, fun x hx => ?_⟩
        cases hx' : p x with
        | false => rfl
        | true =>
          have : x ∈ l.filter p := List.mem_filter.2 ⟨hx, hx'⟩
          rw [he] at this; cases this
      · rw [he] at h; cases h

/-- **C60.** For any bytes given to `txt2sd`, looking up a key that is not empty
gives the value of the last string with this key, and nothing if there is none;
strings are read up to the first that is empty or cut off. -/
theorem C60_txt_values (d k : Bytes) (hk : k ≠ []) :
    ∃ r, txt2sd d d.length = .ok r ∧ ValueOf d k (getOpt r k) := by
  have key : ∀ o : Option Bytes,
      o = ((((strings d).filter fun s => (splitEq (cstr s)).1 == k).getLast?).map fun s => (splitEq (cstr s)).2) →
      ValueOf d k o := by
    rintro o rfl
    cases h : ((strings d).filter fun s => (splitEq (cstr s)).1 == k).getLast? with
    | none =>
      have he : (strings d).filter (fun s => (splitEq (cstr s)).1 == k) = [] := by simpa using h
      intro s hs v hv
      have : s ∈ (strings d).filter (fun s => (splitEq (cstr s)).1 == k) :=
        List.mem_filter.2 ⟨hs, by rw [(pair_iff s k v).1 hv]; simp⟩
      rw [he] at this; cases this
    | some s =>
      obtain ⟨pre, post, e, h1, h2⟩ := last_split _ _ _ h
      refine ⟨pre, s, post, e, (pair_iff _ _ _).2 ?_, fun s' hs' v' hv' => ?_⟩
      · rw [← beq_iff_eq.1 h1]
      · have := h2 s' hs'
        rw [(pair_iff _ _ _).1 hv'] at this
        simp at this
  have hg := get_stored (strings d) k hk (new 23) (inv_new 23 (by decide))
  have hnew : (get (new 23) k).map (·.str) = none := by
    rw [get_eq, lookup_none_of_absent]
    · rfl
    · intro n hn; simp [new] at hn; subst hn; rfl
  rw [hnew, Option.or_none] at hg
  unfold txt2sd
  cases d with
  | nil =>
    refine ⟨none, rfl, ?_⟩
    intro s hs
    simp [strings] at hs
  | cons c rest =>
    simp only [List.length_cons]
    rw [if_neg (by omega)]
    by_cases hc : c = 0
    · rw [if_pos hc]
      refine ⟨none, rfl, ?_⟩
      intro s hs
      rw [strings, if_pos (.inl hc)] at hs
      cases hs
    · rw [if_neg hc]
      have hl := txtLoop_strings (new 23) (c :: rest)
      rw [List.length_cons] at hl
      rw [hl]
      exact ⟨_, rfl, key _ hg⟩

/-- A key given twice, one without `=`, and a string that is cut off. -/
example : (match txt2sd [3, 0x61, 0x3D, 0x31, 1, 0x62, 3, 0x61, 0x3D, 0x32, 9, 0x63] 12 with
    | .ok r => (getOpt r [0x61], getOpt r [0x62], getOpt r [0x63])
    | .oob => (none, none, none)) = (some [0x32], some [], none) := by decide +kernel

/-- The result is determined by `ValueOf`. -/
theorem ValueOf.unique {d k : Bytes} {r r' : Option Bytes} (h : ValueOf d k r) (h' : ValueOf d k r') : r = r' := by
  have no : ∀ {o : Option Bytes} {v : Bytes}, ValueOf d k none → ValueOf d k (some v) → False := by
    rintro _ v h ⟨pre, s, post, e, hp, _⟩
    exact h s (by rw [e]; simp) v hp
  cases r with
  | none =>
    cases r' with
    | none => rfl
    | some v => exact (no (o := none) h h').elim
  | some v =>
    cases r' with
    | none => exact (no (o := none) h' h).elim
    | some v' =>
      obtain ⟨pre, s, post, e, hp, hn⟩ := h
      obtain ⟨pre', s', post', e', hp', hn'⟩ := h'
      have : ∀ (pre pre' : List Bytes), pre ++ s :: post = pre' ++ s' :: post' → s = s' := by
        intro pre
        induction pre with
        | nil =>
          intro pre' e
          cases pre' with
          | nil => injection e
          | cons x pre' =>
            injection e with _ e
            exact absurd hp' (hn s' (by rw [e]; simp) v')
        | cons x pre ih =>
          intro pre' e
          cases pre' with
          | nil =>
            injection e with _ e
            exact absurd hp (hn' s (by rw [← e]; simp) v)
          | cons y pre' => injection e with _ e; exact ih pre' e
      have := this pre pre' (by rw [← e, ← e'])
      subst this
      have h1 := (pair_iff _ _ _).1 hp
      have h2 := (pair_iff _ _ _).1 hp'
      rw [h1] at h2
      injection h2 with _ h2
      rw [h2]

end Mdns.SdTxt
