import Verif.Model.SdTxt
import Verif.Props.Xht
import Verif.Lemmas.Util

/-!
# C11, C12, C13: TXT record data
-/

namespace Mdns.SdTxt

open Mdns.Xht

/-! ### C12: decoding stays inside the data -/

theorem txtLoop_safe (t : Table) (mem : Bytes) (len : Nat) (h : len ≤ mem.length) :
    txtLoop t mem len ≠ .oob := by
  fun_induction txtLoop t mem len with
  | case1 => simp
  | case2 => simp at h; omega
  | case3 => simp
  | case4 => simp
  | case5 _ _ _ _ _ _ _ h5 => simp at h; omega
  | case6 _ _ _ _ _ _ _ _ _ _ ih =>
    apply ih
    simp only [List.length_cons] at h
    simp only [List.length_drop]
    omega

/-- **C12.** `txt2sd` never reads outside the `len` bytes it was given. -/
theorem C12_txt2sd_in_bounds (mem : Bytes) (len : Nat) (h : len ≤ mem.length) :
    ∃ r, txt2sd mem len = .ok r := by
  unfold txt2sd
  split
  · exact ⟨_, rfl⟩
  · split
    · simp at h; omega
    · split
      · exact ⟨_, rfl⟩
      · split
        · exact ⟨_, rfl⟩
        · rename_i hx; exact absurd hx (txtLoop_safe _ _ _ h)

theorem txtLoop_prefix (t : Table) (mem : Bytes) (len : Nat) (h : len ≤ mem.length) (post : Bytes) :
    txtLoop t (mem ++ post) len = txtLoop t mem len := by
  fun_induction txtLoop t mem len with
  | case1 => rw [txtLoop.eq_def, if_pos rfl]
  | case2 => simp at h; omega
  | case3 => rw [List.cons_append, txtLoop]; simp_all
  | case4 => rw [List.cons_append, txtLoop]; simp_all
  | case5 _ _ _ _ _ _ _ h5 => simp at h; omega
  | case6 t len hl c rest h3 h4 h5 key kv ih =>
    simp only [List.length_cons] at h
    rw [List.cons_append, txtLoop]
    have e1 : (rest ++ post).take c.toNat = rest.take c.toNat := by
      rw [List.take_append_of_le_length (by omega)]
    have e2 : (rest ++ post).drop c.toNat = rest.drop c.toNat ++ post := by
      rw [List.drop_append_of_le_length (by omega)]
    have e3 : ¬ (rest ++ post).length < c.toNat := by
      simp only [List.length_append]; omega
    simp only [hl, if_false, h3, h4, e1, e2, e3]
    exact ih (by simp only [List.length_drop]; omega)

/-- **C12.** The result does not depend on what follows the `len` bytes. -/
theorem C12_txt2sd_ignores_following (mem post : Bytes) :
    txt2sd (mem ++ post) mem.length = txt2sd mem mem.length := by
  unfold txt2sd
  cases mem with
  | nil => rfl
  | cons c m =>
    simp only [List.cons_append]
    rw [← List.cons_append, txtLoop_prefix _ _ _ (Nat.le_refl _)]

/-- Data whose last string claims more bytes than there are. -/
example : ∃ r, txt2sd [3, 0x61, 0x3D, 0x62, 200, 0x63] 6 = .ok r :=
  C12_txt2sd_in_bounds _ _ (by decide)

/-! ### C13: the two passes of the encoder agree -/

theorem writeEntry_length (k v : Bytes) : (writeEntry k v).length = entryLen k v + 1 := by
  unfold writeEntry entryLen
  split <;> simp <;> omega

theorem count_eq (l : List (Obj × Obj)) :
    count l = (l.flatMap (fun kv => writeEntry kv.1.str kv.2.str)).length := by
  have gen : ∀ (l : List (Obj × Obj)) n, l.foldl (fun n kv => n + (entryLen kv.1.str kv.2.str + 1)) n
      = n + (l.flatMap (fun kv => writeEntry kv.1.str kv.2.str)).length := by
    intro l
    induction l with
    | nil => simp
    | cons kv l ih =>
      intro n
      simp only [List.foldl_cons, List.flatMap_cons, List.length_append, writeEntry_length]
      rw [ih]; omega
  simpa [count] using gen l 0

/-- **C13.** The length reported is the number of bytes written, and not zero. -/
theorem C13_sd2txt_length (t : Table) :
    (sd2txt t).1.length = (sd2txt t).2 ∧ 1 ≤ (sd2txt t).2 := by
  unfold sd2txt
  simp only
  split
  · exact ⟨rfl, Nat.le_refl _⟩
  · exact ⟨(count_eq _).symm, by omega⟩

/-! ### C11: round trip -/

/-- `xht_get` on the result of `txt2sd`, which may be NULL. -/
def getOpt (t : Option Table) (k : Bytes) : Option Bytes := t.bind fun t => (get t k).map (·.str)

/-- Entries that a TXT string can hold: C strings, a key that is not empty and
has no `=`, and at most 255 bytes altogether (RFC 6763 6.1). -/
structure Fits (k v : Bytes) : Prop where
  key_ne : k ≠ []
  key_nul : 0 ∉ k
  key_eq : (0x3D : UInt8) ∉ k
  val_nul : 0 ∉ v
  len : k.length + (if v = [] then 0 else v.length + 1) ≤ 255

theorem splitEq_key (k : Bytes) (h : (0x3D : UInt8) ∉ k) : splitEq k = (k, []) := by
  unfold splitEq
  have h1 : k.takeWhile (· != 0x3D) = k := by
    apply takeWhile_self
    intro x hx; simp only [bne_iff_ne, ne_eq]; rintro rfl; exact h hx
  have h2 : k.dropWhile (· != 0x3D) = [] := by
    apply dropWhile_nil
    intro x hx; simp only [bne_iff_ne, ne_eq]; rintro rfl; exact h hx
  rw [h1, h2]; rfl

theorem splitEq_keyval (k v : Bytes) (h : (0x3D : UInt8) ∉ k) : splitEq (k ++ 0x3D :: v) = (k, v) := by
  unfold splitEq
  have hne : ∀ x ∈ k, (x != 0x3D) = true := by
    intro x hx; simp only [bne_iff_ne, ne_eq]; rintro rfl; exact h hx
  rw [List.takeWhile_append_of_pos hne, List.dropWhile_append_of_pos hne]
  simp

theorem fits_len {k v : Bytes} (h : Fits k v) : entryLen k v ≤ 255 := by
  have := h.len
  unfold entryLen
  cases v with
  | nil => simpa using this
  | cons a v => simp at this ⊢; omega

theorem fits_pos {k v : Bytes} (h : Fits k v) : 0 < entryLen k v := by
  have := List.length_pos_iff.2 h.key_ne
  unfold entryLen; split <;> omega

theorem txtLoop_entry (t : Table) (k v rest : Bytes) (len : Nat) (h : Fits k v) :
    txtLoop t (writeEntry k v ++ rest) (entryLen k v + 1 + len)
      = txtLoop (store t k (some v)) rest len := by
  have hl := fits_len h
  have hp := fits_pos h
  have hto : (UInt8.ofNat (entryLen k v)).toNat = entryLen k v := by
    simp only [UInt8.toNat_ofNat']; omega
  have hbody : (k ++ if v.isEmpty then [] else 0x3D :: v).length = entryLen k v := by
    have := writeEntry_length k v
    simpa [writeEntry] using this
  rw [writeEntry, List.cons_append, txtLoop]
  have c1 : ¬ (entryLen k v + 1 + len = 0) := by omega
  have c2 : entryLen k v < entryLen k v + 1 + len := by omega
  have c3 : UInt8.ofNat (entryLen k v) ≠ 0 := by
    intro hc
    rw [hc] at hto
    simp at hto; omega
  generalize hb : (k ++ if v.isEmpty then [] else 0x3D :: v) = body at *
  have c4 : ¬ (body ++ rest).length < entryLen k v := by simp only [List.length_append]; omega
  have e1 : (body ++ rest).take (entryLen k v) = body := by
    rw [← hbody, List.take_left]
  have e2 : (body ++ rest).drop (entryLen k v) = rest := by
    rw [← hbody, List.drop_left]
  simp only [c1, if_false, hto, c2, not_true_eq_false, c3, c4, e1, e2]
  have e3 : entryLen k v + 1 + len - (entryLen k v + 1) = len := by omega
  rw [e3]
  have e4 : splitEq (cstr body) = (k, v) := by
    cases v with
    | nil =>
      simp only [List.isEmpty_nil, if_true, List.append_nil] at hb
      subst hb
      rw [cstr_of_nul_free h.key_nul, splitEq_key k h.key_eq]
    | cons a v =>
      simp only [List.isEmpty_cons, Bool.false_eq_true, if_false] at hb
      subst hb
      have : (0 : UInt8) ∉ k ++ 0x3D :: a :: v := by
        intro hc
        rcases List.mem_append.1 hc with hc | hc
        · exact h.key_nul hc
        · rcases List.mem_cons.1 hc with hc | hc
          · exact absurd hc (by decide)
          · exact h.val_nul hc
      rw [cstr_of_nul_free this, splitEq_keyval k _ h.key_eq]
  rw [e4]

theorem txtLoop_entries (l : List (Obj × Obj)) (hl : ∀ kv ∈ l, Fits kv.1.str kv.2.str) : ∀ t : Table,
    txtLoop t (l.flatMap (fun kv => writeEntry kv.1.str kv.2.str)) (count l)
      = .ok (l.foldl (fun t kv => store t kv.1.str (some kv.2.str)) t) := by
  induction l with
  | nil => intro t; simp [count, txtLoop]
  | cons kv l ih =>
    intro t
    have hc : count (kv :: l) = entryLen kv.1.str kv.2.str + 1 + count l := by
      rw [count_eq, count_eq]
      simp only [List.flatMap_cons, List.length_append, writeEntry_length]
    rw [hc, List.flatMap_cons, txtLoop_entry _ _ _ _ _ (hl kv (by simp))]
    rw [ih (fun m hm => hl m (by simp [hm]))]
    rfl

theorem inv_stores (l : List (Obj × Obj)) : ∀ t : Table, Inv t →
    Inv (l.foldl (fun t kv => store t kv.1.str (some kv.2.str)) t) := by
  induction l with
  | nil => intro t h; exact h
  | cons kv l ih => intro t h; exact ih _ (inv_store h _ _)

theorem get_stores (l : List (Obj × Obj)) (hl : ∀ kv ∈ l, Fits kv.1.str kv.2.str) (k : Bytes) :
    ∀ t : Table, Inv t →
    (get (l.foldl (fun t kv => store t kv.1.str (some kv.2.str)) t) k).map (·.str)
      = ((((l.filter (fun kv => kv.1.str == k)).map (·.2)).getLast?).map (·.str)).or
          ((get t k).map (·.str)) := by
  induction l with
  | nil => intro t _; simp
  | cons kv l ih =>
    intro t hi
    have hf := hl kv (by simp)
    rw [List.foldl_cons, ih (fun m hm => hl m (by simp [hm])) _ (inv_store hi _ _)]
    have hlen : kv.1.str.length ≠ 0 := by
      have := hf.key_ne; simpa using this
    rw [get_store hi]
    simp only [hlen, if_false, cstr_of_nul_free hf.key_nul, cstr_of_nul_free hf.val_nul]
    rw [List.filter_cons]
    by_cases hk : kv.1.str = k
    · simp only [hk, if_true, beq_self_eq_true, List.map_cons]
      cases hh : ((l.filter (fun kv => kv.1.str == k)).map (·.2)).getLast? with
      | none =>
        have : (l.filter (fun kv => kv.1.str == k)).map (·.2) = [] := by simpa using hh
        rw [this]; simp
      | some x =>
        rw [List.getLast?_cons, hh]; simp
    · have : (kv.1.str == k) = false := by simpa using hk
      simp only [hk, if_false, this, Bool.false_eq_true]

/-- **C11 (partial).** For every table whose entries fit a TXT string (255 bytes),
decoding the encoding gives back exactly the same key/value pairs.  Missing from
the full claim: entries longer than 255 bytes, for which it is false, see
`C11_long_entry_counterexample`. -/
theorem C11_txt_round_trip_partial (p : Nat) (hp : 0 < p) (ops : List Op)
    (h : ∀ kv ∈ walk (run (new p) ops), Fits kv.1.str kv.2.str) :
    ∃ r, txt2sd (sd2txt (run (new p) ops)).1 (sd2txt (run (new p) ops)).2 = .ok r ∧
      ∀ k, getOpt r k = (get (run (new p) ops) k).map (·.str) := by
  have hw := C16_walk_visits_each_once p hp ops
  generalize run (new p) ops = t at *
  unfold sd2txt
  simp only
  split
  · rename_i h0
    refine ⟨none, by simp [txt2sd], ?_⟩
    intro k
    rw [count_eq] at h0
    have hnil : walk t = [] := by
      cases hwt : walk t with
      | nil => rfl
      | cons a l =>
        rw [hwt] at h0
        simp only [List.flatMap_cons, List.length_append, writeEntry_length] at h0
        omega
    have := hw k
    rw [hnil] at this
    cases hg : get t k with
    | none => rfl
    | some o => rw [hg] at this; simp at this
  · rename_i h0
    have hloop := txtLoop_entries (walk t) h (new 23)
    refine ⟨some ((walk t).foldl (fun t kv => store t kv.1.str (some kv.2.str)) (new 23)), ?_, ?_⟩
    · unfold txt2sd
      rw [if_neg h0]
      cases hwt : walk t with
      | nil => rw [hwt] at h0; simp [count] at h0
      | cons a l =>
        rw [hwt] at hloop h
        have hf := h a (by simp)
        have hne : UInt8.ofNat (entryLen a.1.str a.2.str) ≠ 0 := by
          intro hc
          have h1 : (UInt8.ofNat (entryLen a.1.str a.2.str)).toNat = 0 := by rw [hc]; rfl
          have h2 := fits_len hf
          have h3 := fits_pos hf
          simp only [UInt8.toNat_ofNat'] at h1; omega
        have hshape : List.flatMap (fun kv : Obj × Obj => writeEntry kv.1.str kv.2.str) (a :: l)
            = UInt8.ofNat (entryLen a.1.str a.2.str) ::
              ((a.1.str ++ if a.2.str.isEmpty then [] else 0x3D :: a.2.str) ++
                List.flatMap (fun kv : Obj × Obj => writeEntry kv.1.str kv.2.str) l) := by
          simp [writeEntry]
        rw [hshape] at hloop ⊢
        simp only [hne, if_false, hloop]
    · intro k
      simp only [getOpt, Option.bind_some]
      rw [get_stores _ h k _ (inv_new 23 (by decide)), hw k]
      have : get (new 23) k = none := by simp [get_eq, lookup, new, keyIs]
      rw [this]
      cases get t k <;> simp

/-- The hypotheses are met by a table with two keys, one without value. -/
example : (let t := run (new 11) [.set 0 [0x61] (some (1, [0x62, 0x3D])), .set 2 [0x63] (some (3, []))]
    match txt2sd (sd2txt t).1 (sd2txt t).2 with
    | .ok r => (getOpt r [0x61], getOpt r [0x63], getOpt r [0x62])
    | .oob => (none, none, none)) = (some [0x62, 0x3D], some [], none) := by decide +kernel

/-- The full claim is false: with an entry of 257 bytes the length byte wraps to
1 and the value is lost. -/
theorem C11_long_entry_counterexample :
    ∃ ops : List Op, (get (run (new 11) ops) [0x6b]).map (·.str) = some (List.replicate 255 0x76) ∧
      ∃ r, txt2sd (sd2txt (run (new 11) ops)).1 (sd2txt (run (new 11) ops)).2 = .ok r ∧
        getOpt r [0x6b] ≠ some (List.replicate 255 0x76) := by
  refine ⟨[.set 0 [0x6b] (some (1, List.replicate 255 0x76))], by decide +kernel, ?_⟩
  have hlen := C13_sd2txt_length (run (new 11) [.set 0 [0x6b] (some (1, List.replicate 255 0x76))])
  obtain ⟨r, hr⟩ := C12_txt2sd_in_bounds _ _ (Nat.le_of_eq hlen.1.symm)
  refine ⟨r, hr, ?_⟩
  intro hc
  have : (match txt2sd (sd2txt (run (new 11) [.set 0 [0x6b] (some (1, List.replicate 255 0x76))])).1
      (sd2txt (run (new 11) [.set 0 [0x6b] (some (1, List.replicate 255 0x76))])).2 with
    | .ok r => decide (getOpt r [0x6b] = some (List.replicate 255 0x76))
    | .oob => false) = false := by decide +kernel
  rw [hr] at this
  exact of_decide_eq_false this hc

end Mdns.SdTxt
