import Verif.Lemmas.Builder
import Verif.Spec.Rfc1035

/-! Name encoding and compression: what `_host` writes. -/

namespace Mdns

open Spec

/-- Labels with a valid length. -/
def OkLabels (ls : List Bytes) : Prop := ∀ l ∈ ls, 1 ≤ l.length ∧ l.length ≤ 63

/-- Uncompressed labels without terminator. -/
def encLabels (ls : List Bytes) : Bytes := ls.flatMap fun l => UInt8.ofNat l.length :: l

theorem encLabels_cons (l : Bytes) (ls) : encLabels (l :: ls) = UInt8.ofNat l.length :: (l ++ encLabels ls) := by
  simp [encLabels]

theorem encLabels_append (a b) : encLabels (a ++ b) = encLabels a ++ encLabels b := by
  simp [encLabels]

/-! ### The text to label conversion -/

theorem stripDot_nil : stripDot [] = [] := by simp [stripDot]

theorem splitDots_ne_nil (n : Bytes) : splitDots n ≠ [] := by
  cases n with
  | nil => simp [splitDots]
  | cons c r =>
    unfold splitDots
    split
    · simp
    · split <;> simp

theorem stripDot_cons (c : UInt8) (r : Bytes) (h : r ≠ []) : stripDot (c :: r) = c :: stripDot r := by
  unfold stripDot
  rw [List.getLast?_cons]
  cases hr : r.getLast? with
  | none => simp [h] at hr
  | some x =>
    simp only [Option.getD_some, Option.some.injEq]
    split
    · simp [h, List.dropLast_cons_of_ne_nil]
    · rfl

theorem mkLabel_gen (name : Bytes) : ∀ acc cur,
    acc.length + 1 + cur.length + (stripDot name).length ≤ 255 →
    mkLabel acc cur name =
      match splitDots (stripDot name) with
      | h :: t =>
        if acc = [] ∧ cur = [] ∧ stripDot name = [] then some [0]
        else some (acc ++ encLabels ((cur ++ h) :: t) ++ [0])
      | [] => none := by
  induction name with
  | nil =>
    intro acc cur _
    rw [stripDot_nil]
    simp only [splitDots, mkLabel, mkLabel.finish]
    by_cases h : acc.length + 1 + cur.length = 1
    · have h1 : acc = [] := List.length_eq_zero_iff.1 (by omega)
      have h2 : cur = [] := List.length_eq_zero_iff.1 (by omega)
      simp [h1, h2]
    · have : ¬ (acc = [] ∧ cur = []) := by
        rintro ⟨rfl, rfl⟩; simp at h
      rw [if_neg h, if_neg (by simpa using this)]
      simp [encLabels]
  | cons c rest ih =>
    intro acc cur hlen
    unfold mkLabel
    by_cases hr : rest = []
    · subst hr
      by_cases hc : c = 0x2E
      · subst hc
        have hs : stripDot [0x2E] = [] := by simp [stripDot]
        rw [hs]
        simp only [if_true, splitDots, mkLabel.finish]
        by_cases h : acc.length + 1 + cur.length = 1
        · have h1 : acc = [] := List.length_eq_zero_iff.1 (by omega)
          have h2 : cur = [] := List.length_eq_zero_iff.1 (by omega)
          simp [h1, h2]
        · have : ¬ (acc = [] ∧ cur = []) := by
            rintro ⟨rfl, rfl⟩; simp at h
          rw [if_neg h, if_neg (by simpa using this)]
          simp [encLabels]
      · have hs : stripDot [c] = [c] := by simp [stripDot, hc]
        rw [hs] at hlen ⊢
        simp only [List.length_cons, List.length_nil] at hlen
        rw [if_neg hc, if_neg (by omega)]
        have := ih acc (cur ++ [c]) (by
          rw [stripDot_nil]; simp only [List.length_append, List.length_cons, List.length_nil]; omega)
        rw [this, stripDot_nil]
        simp [splitDots, hc]
    · rw [stripDot_cons c rest hr] at hlen ⊢
      simp only [List.length_cons] at hlen
      by_cases hc : c = 0x2E
      · subst hc
        rw [if_pos rfl, if_neg hr, if_neg (by omega)]
        rw [ih _ _ (by simp only [List.length_append, List.length_cons, List.length_nil]; omega)]
        simp only [splitDots, if_true]
        cases hsp : splitDots (stripDot rest) with
        | nil => exact absurd hsp (splitDots_ne_nil _)
        | cons h t => simp [encLabels]
      · rw [if_neg hc, if_neg (by omega)]
        rw [ih _ _ (by simp only [List.length_append, List.length_cons, List.length_nil]; omega)]
        simp only [splitDots, if_neg hc]
        cases hsp : splitDots (stripDot rest) with
        | nil => exact absurd hsp (splitDots_ne_nil _)
        | cons h t => simp [encLabels]

/-- The labels made by `_host` are the labels of the text. -/
theorem mkLabel_eq (n : Bytes) (h : HostName n) :
    mkLabel [] [] n = some (encLabels (labelsOf n) ++ [0]) := by
  have := mkLabel_gen n [] [] (by have := h.len; simp only [List.length_nil]; omega)
  rw [this]
  unfold labelsOf
  cases hsp : splitDots (stripDot n) with
  | nil => exact absurd hsp (splitDots_ne_nil _)
  | cons a t =>
    by_cases hs : stripDot n = []
    · simp [hs, encLabels]
    · simp [hs]

theorem splitDots_total (s : Bytes) :
    (splitDots s).flatMap (fun l => l ++ [0x2E]) = s ++ [0x2E] := by
  induction s with
  | nil => simp [splitDots]
  | cons c r ih =>
    unfold splitDots
    split
    · rename_i hc; simp [ih, hc]
    · cases hsp : splitDots r with
      | nil => exact absurd hsp (splitDots_ne_nil _)
      | cons h t =>
        rw [hsp] at ih
        simp only [List.flatMap_cons] at ih ⊢
        simp [← ih]

theorem encLabels_length (ls : List Bytes) : (encLabels ls).length = (textOf ls).length := by
  induction ls with
  | nil => rfl
  | cons l ls ih =>
    rw [encLabels_cons]
    simp only [List.length_cons, List.length_append, ih, textOf, List.flatMap_cons, List.length_nil]
    omega

theorem textOf_labelsOf_length (n : Bytes) (h : HostName n) : (textOf (labelsOf n)).length ≤ 255 := by
  unfold labelsOf
  split
  · simp [textOf]
  · unfold textOf
    rw [splitDots_total]
    have := h.len
    simp only [List.length_append, List.length_cons, List.length_nil]; omega

/-! ### Runs of labels in memory -/

theorem getD_drop (p : Bytes) (o k : Nat) : p.getD (o + k) 0 = (p.drop o).getD k 0 := by
  simp [List.getD_eq_getElem?_getD]

theorem getD_of_drop {p : Bytes} {o : Nat} {c : UInt8} {r : Bytes} (h : p.drop o = c :: r) :
    p.getD o 0 = c := by
  have := getD_drop p o 0
  rw [h] at this
  simpa using this

theorem drop_cons_succ {p : Bytes} {o : Nat} {c : UInt8} {r : Bytes} (h : p.drop o = c :: r) :
    p.drop (o + 1) = r := by
  have : p.drop (o + 1) = (p.drop o).drop 1 := by rw [List.drop_drop]
  rw [this, h]; rfl

theorem drop_append_len {p : Bytes} {o : Nat} {a r : Bytes} (h : p.drop o = a ++ r) :
    p.drop (o + a.length) = r := by
  have : p.drop (o + a.length) = (p.drop o).drop a.length := by rw [List.drop_drop]
  rw [this, h, List.drop_left]

theorem lenByte (l : Bytes) (h : 1 ≤ l.length ∧ l.length ≤ 63) :
    (UInt8.ofNat l.length).toNat = l.length ∧ UInt8.ofNat l.length ≠ 0 ∧
    isPtr (UInt8.ofNat l.length) = false := by
  have h1 : (UInt8.ofNat l.length).toNat = l.length := by
    simp only [UInt8.toNat_ofNat']; omega
  refine ⟨h1, ?_, ?_⟩
  · intro hc; rw [hc] at h1; simp at h1; omega
  · have key : ∀ n : Fin 64, isPtr (UInt8.ofNat n.val) = false := by decide +kernel
    exact key ⟨l.length, by omega⟩

theorem sameBytes_iff (lab pkt : Bytes) (x o : Nat) : ∀ n, sameBytes lab pkt (.lab x) (.pkt o) n = true ↔
    ∀ i, i < n → lab.getD (x + 1 + i) 0 = pkt.getD (o + 1 + i) 0 := by
  intro n
  induction n with
  | zero => simp [sameBytes]
  | succ n ih =>
    simp only [sameBytes, Bool.and_eq_true, beq_iff_eq, LPtr.add, LPtr.rd, ih]
    constructor
    · rintro ⟨h1, h2⟩ i hi
      by_cases h : i < n
      · exact h2 i h
      · have : i = n := by omega
        subst this
        rw [Nat.add_assoc x, Nat.add_comm 1 i, Nat.add_assoc o, Nat.add_comm 1 i]
        exact h1
    · intro h
      refine ⟨?_, fun i hi => h i (by omega)⟩
      have := h n (by omega)
      rw [Nat.add_assoc x, Nat.add_comm 1 n, Nat.add_assoc o, Nat.add_comm 1 n] at this
      exact this

theorem sameBytes_labels (lab pkt : Bytes) (x o : Nat) (c d : UInt8) (l k r1 r2 : Bytes)
    (h1 : lab.drop x = c :: (l ++ r1)) (h2 : pkt.drop o = d :: (k ++ r2)) (hlen : l.length = k.length) :
    sameBytes lab pkt (.lab x) (.pkt o) l.length = decide (l = k) := by
  have e : sameBytes lab pkt (.lab x) (.pkt o) l.length = true ↔ l = k := by
    rw [sameBytes_iff]
    have d1 := drop_cons_succ h1
    have d2 := drop_cons_succ h2
    have g1 : ∀ i, i < l.length → lab.getD (x + 1 + i) 0 = l.getD i 0 := by
      intro i hi
      rw [getD_drop, d1]; simp [List.getD_eq_getElem?_getD, List.getElem?_append, hi]
    have g2 : ∀ i, i < l.length → pkt.getD (o + 1 + i) 0 = k.getD i 0 := by
      intro i hi
      rw [getD_drop, d2]; simp [List.getD_eq_getElem?_getD, List.getElem?_append, hlen ▸ hi]
    constructor
    · intro h
      apply List.ext_getElem hlen
      intro i hi hi'
      have := h i hi
      rw [g1 i hi, g2 i hi] at this
      simpa [List.getD_eq_getElem?_getD, hi, hi'] using this
    · rintro rfl i hi
      rw [g1 i hi, g2 i hi]
  rw [Bool.eq_iff_iff, e]
  simp

/-- The terminator of a run: the root byte or a compression pointer. -/
def Term (b : UInt8) : Prop := b = 0 ∨ isPtr b = true

theorem rd_beyond (lab pkt : Bytes) (n : Nat) : (LPtr.pkt (pkt.length + n)).rd lab pkt = 0 := by
  simp [LPtr.rd, List.getD_eq_getElem?_getD]

/-- The exact meaning of `_lmatch` while building: it compares the labels up to
the root with the labels written in place, ignoring where a trailing
compression pointer would lead. -/
theorem lmatchF_spec (lab pkt : Bytes) : ∀ (ls own : List Bytes) (x o fuel : Nat) (b : UInt8) (r1 r2 : Bytes),
    lab.drop x = encLabels ls ++ 0 :: r1 → pkt.drop o = encLabels own ++ b :: r2 → Term b →
    OkLabels ls → OkLabels own → ls ≠ [] → own ≠ [] → ls.length + 3 ≤ fuel →
    lmatchF lab pkt fuel (.lab x) (.pkt o) = some (decide (ls = own)) := by
  intro ls
  induction ls with
  | nil => intro own x o fuel b r1 r2 _ _ _ _ _ h; exact absurd rfl h
  | cons l ls ih =>
    intro own x o fuel b r1 r2 h1 h2 hb ho1 ho2 _ hne hf
    cases own with
    | nil => exact absurd rfl hne
    | cons k own =>
      cases fuel with
      | zero => simp at hf
      | succ fuel =>
        rw [encLabels_cons, List.cons_append, List.append_assoc] at h1 h2
        have hl := lenByte l (ho1 l (by simp))
        have hk := lenByte k (ho2 k (by simp))
        have rd1 : (LPtr.lab x).rd lab pkt = UInt8.ofNat l.length := getD_of_drop h1
        have rd2 : (LPtr.pkt o).rd lab pkt = UInt8.ofNat k.length := getD_of_drop h2
        unfold lmatchF
        simp only [rd1, rd2, hl.2.2, hk.2.2, Bool.false_eq_true, if_false, reduceCtorEq, hl.2.1]
        by_cases hlen : l.length = k.length
        · rw [if_neg (by rw [hlen]; simp), hl.1, sameBytes_labels lab pkt x o _ _ l k _ _ h1 h2 hlen]
          by_cases hlk : l = k
          · subst hlk
            simp only [decide_true, not_true_eq_false, if_false, hl.1]
            have n1 : lab.drop (x + (l.length + 1)) = encLabels ls ++ 0 :: r1 := by
              have := drop_append_len (drop_cons_succ h1)
              rw [← this]; congr 1; omega
            have n2 : pkt.drop (o + (l.length + 1)) = encLabels own ++ b :: r2 := by
              have := drop_append_len (drop_cons_succ h2)
              rw [← this]; congr 1; omega
            simp only [LPtr.add]
            have ho1' : OkLabels ls := fun a ha => ho1 a (by simp [ha])
            have ho2' : OkLabels own := fun a ha => ho2 a (by simp [ha])
            cases ls with
            | nil =>
              have q1 : (LPtr.lab (x + (l.length + 1))).rd lab pkt = 0 := getD_of_drop n1
              cases own with
              | nil =>
                have q2 : (LPtr.pkt (o + (l.length + 1))).rd lab pkt = b := getD_of_drop n2
                simp only [q1, q2, true_and]
                by_cases hb0 : b = 0
                · simp [hb0]
                · have hp : isPtr b = true := hb.resolve_left hb0
                  rw [if_neg hb0]
                  simp only [List.length_cons, List.length_nil] at hf
                  obtain ⟨f2, rfl⟩ : ∃ f2, fuel = f2 + 2 := ⟨fuel - 2, by omega⟩
                  have hz : isPtr 0 = false := by decide
                  rw [show f2 + 2 = (f2 + 1) + 1 from rfl]
                  unfold lmatchF
                  simp only [q1, q2, hp, hz, Bool.false_eq_true, if_false, if_true]
                  unfold lmatchF
                  simp only [q1, rd_beyond, hz, Bool.false_eq_true, if_false, reduceCtorEq, ne_eq,
                    not_true_eq_false, if_true, decide_true]
              | cons k2 own =>
                rw [encLabels_cons, List.cons_append, List.append_assoc] at n2
                have hk2 := lenByte k2 (ho2' k2 (by simp))
                have q2 : (LPtr.pkt (o + (l.length + 1))).rd lab pkt = UInt8.ofNat k2.length := getD_of_drop n2
                simp only [q1, q2, hk2.2.1, and_false, if_false]
                obtain ⟨f2, rfl⟩ : ∃ f2, fuel = f2 + 1 := ⟨fuel - 1, by simp at hf; omega⟩
                have hz : isPtr 0 = false := by decide
                unfold lmatchF
                simp only [q1, q2, hz, hk2.2.2, Bool.false_eq_true, if_false, reduceCtorEq]
                rw [if_pos (Ne.symm hk2.2.1)]
                simp
            | cons l2 ls =>
              have hl2 := lenByte l2 (ho1' l2 (by simp))
              have n1' := n1
              rw [encLabels_cons, List.cons_append, List.append_assoc] at n1'
              have q1 : (LPtr.lab (x + (l.length + 1))).rd lab pkt = UInt8.ofNat l2.length := getD_of_drop n1'
              simp only [q1, hl2.2.1, false_and, if_false]
              cases own with
              | nil =>
                have q2 : (LPtr.pkt (o + (l.length + 1))).rd lab pkt = b := getD_of_drop n2
                have hz : isPtr 0 = false := by decide
                simp only [List.length_cons] at hf
                obtain ⟨f2, rfl⟩ : ∃ f2, fuel = f2 + 2 := ⟨fuel - 2, by omega⟩
                rw [show f2 + 2 = (f2 + 1) + 1 from rfl]
                unfold lmatchF
                simp only [q1, q2, hl2.2.2, Bool.false_eq_true, if_false, reduceCtorEq]
                cases hp : isPtr b with
                | true =>
                  simp only [if_true]
                  unfold lmatchF
                  simp only [q1, rd_beyond, hl2.2.2, hz, Bool.false_eq_true, if_false, reduceCtorEq]
                  rw [if_pos hl2.2.1]
                  simp
                | false =>
                  have : b = 0 := hb.resolve_right (by simp [hp])
                  subst this
                  simp only [Bool.false_eq_true, if_false]
                  rw [if_pos hl2.2.1]
                  simp
              | cons k2 own =>
                rw [ih (k2 :: own) _ _ _ b r1 r2 n1 n2 hb ho1' ho2' (by simp) (by simp)
                  (by simp at hf ⊢; omega)]
                simp
          · simp [hlk]
        · have hne' : UInt8.ofNat l.length ≠ UInt8.ofNat k.length := by
            intro hc
            apply hlen
            rw [← hl.1, hc, hk.1]
          rw [if_pos hne']
          have : l ≠ k := by rintro rfl; exact hlen rfl
          simp [this]

theorem length_le_enc (ls : List Bytes) : 2 * ls.length ≤ (encLabels ls).length + ls.length := by
  induction ls with
  | nil => simp
  | cons l ls ih => rw [encLabels_cons]; simp only [List.length_cons, List.length_append]; omega

theorem lmatch_spec (lab pkt : Bytes) (ls own : List Bytes) (x o : Nat) (b : UInt8) (r1 r2 : Bytes)
    (h1 : lab.drop x = encLabels ls ++ 0 :: r1) (h2 : pkt.drop o = encLabels own ++ b :: r2)
    (hb : Term b) (ho1 : OkLabels ls) (ho2 : OkLabels own) (hn1 : ls ≠ []) (hn2 : own ≠ []) :
    lmatch lab pkt (.lab x) (.pkt o) = some (decide (ls = own)) := by
  apply lmatchF_spec lab pkt ls own x o _ b r1 r2 h1 h2 hb ho1 ho2 hn1 hn2
  have hl1 : (lab.drop x).length = (encLabels ls ++ 0 :: r1).length := by rw [h1]
  have hl2 : (pkt.drop o).length = (encLabels own ++ b :: r2).length := by rw [h2]
  simp only [List.length_drop, List.length_append, List.length_cons] at hl1 hl2
  have e1 := length_le_enc ls
  have e2 := length_le_enc own
  have := List.length_pos_iff.2 hn2
  omega

/-! ### What `_host` writes -/

/-- A table entry: a non-empty run of labels, ended by the root or a pointer. -/
def Entry (pkt : Bytes) (o : Nat) (own : List Bytes) (b : UInt8) : Prop :=
  (∃ r, pkt.drop o = encLabels own ++ b :: r) ∧ Term b ∧ OkLabels own ∧ own ≠ []

def Table (pkt : Bytes) (labels : List Nat) : Prop := ∀ o ∈ labels, ∃ own b, Entry pkt o own b

theorem drop_append_of_drop {p : Bytes} {o : Nat} {c : UInt8} {a r : Bytes} (q : Bytes)
    (h : p.drop o = a ++ c :: r) : (p ++ q).drop o = a ++ c :: (r ++ q) := by
  have hl : o ≤ p.length := by
    by_cases hlt : o ≤ p.length
    · exact hlt
    · rw [List.drop_eq_nil_of_le (by omega)] at h; simp at h
  rw [List.drop_append_of_le_length hl, h]; simp

theorem Entry.append {pkt o own b} (h : Entry pkt o own b) (q : Bytes) : Entry (pkt ++ q) o own b := by
  obtain ⟨⟨r, h1⟩, h2⟩ := h
  exact ⟨⟨_, drop_append_of_drop q h1⟩, h2⟩

theorem Entry.lt {pkt o own b} (h : Entry pkt o own b) : o < pkt.length := by
  obtain ⟨⟨r, h1⟩, _⟩ := h
  by_cases hlt : o < pkt.length
  · exact hlt
  · rw [List.drop_eq_nil_of_le (by omega)] at h1; simp at h1

theorem Entry.lmatch_iff {lab pkt : Bytes} {ls : List Bytes} {x o : Nat} {r1} {own b} (h : Entry pkt o own b)
    (h1 : lab.drop x = encLabels ls ++ 0 :: r1) (ho : OkLabels ls) (hn : ls ≠ []) :
    (lmatch lab pkt (.lab x) (.pkt o) == some true) = decide (ls = own) := by
  obtain ⟨⟨r, h2⟩, hb, ho2, hn2⟩ := h
  rw [lmatch_spec lab pkt ls own x o b r1 r h1 h2 hb ho ho2 hn hn2]
  by_cases h : ls = own <;> simp [h]

/-- The two bytes of a compression pointer written by `_host`. -/
def ptrBytes (o : Nat) : Bytes := [(UInt8.ofNat (o >>> 8)) ||| 0xc0, UInt8.ofNat o]

theorem OkLabels.suffix {a b : List Bytes} (h : OkLabels (a ++ b)) : OkLabels b :=
  fun l hl => h l (by simp [hl])

theorem compressF_spec (lab pkt : Bytes) (labels : List Nat) (ht : Table pkt labels) :
    ∀ (ls pre : List Bytes) (fuel : Nat), lab = encLabels (pre ++ ls) ++ [0] → OkLabels ls →
    ls.length + 1 ≤ fuel →
    (compressF lab pkt labels fuel (encLabels pre).length = lab ∧
      ∀ s, s <:+ ls → s ≠ [] → ∀ o ∈ labels, ∀ b, ¬ Entry pkt o s b) ∨
    (∃ ls1 ls2 o b, ls = ls1 ++ ls2 ∧ ls2 ≠ [] ∧ o ∈ labels ∧ Entry pkt o ls2 b ∧
      compressF lab pkt labels fuel (encLabels pre).length = encLabels (pre ++ ls1) ++ ptrBytes o) := by
  intro ls
  induction ls with
  | nil =>
    intro pre fuel hlab _ hf
    left
    obtain ⟨f, rfl⟩ : ∃ f, fuel = f + 1 := ⟨fuel - 1, by omega⟩
    have hd : lab.drop (encLabels pre).length = [0] := by
      rw [hlab, List.append_nil, List.drop_left]
    refine ⟨?_, ?_⟩
    · unfold compressF
      rw [getD_of_drop hd]; simp
    · intro s hs hn
      exact absurd (List.eq_nil_of_suffix_nil hs) hn
  | cons l ls ih =>
    intro pre fuel hlab hok hf
    obtain ⟨f, rfl⟩ : ∃ f, fuel = f + 1 := ⟨fuel - 1, by omega⟩
    have hd : lab.drop (encLabels pre).length = encLabels (l :: ls) ++ 0 :: [] := by
      rw [hlab, encLabels_append, List.append_assoc, List.drop_left]
    have hd' := hd
    rw [encLabels_cons, List.cons_append] at hd'
    have hl := lenByte l (hok l (by simp))
    unfold compressF
    simp only [getD_of_drop hd', hl.2.1, if_false, hl.2.2, Bool.false_eq_true, hl.1]
    cases hfind : labels.find? (fun o => lmatch lab pkt (.lab (encLabels pre).length) (.pkt o) == some true) with
    | some o =>
      right
      have hmem := List.mem_of_find?_eq_some hfind
      obtain ⟨own, b, he⟩ := ht o hmem
      have hp := List.find?_some hfind
      rw [he.lmatch_iff hd hok (by simp)] at hp
      have : l :: ls = own := by simpa using hp
      subst this
      refine ⟨[], _, o, b, rfl, by simp, hmem, he, ?_⟩
      simp only [ptrBytes]
      congr 1
      rw [hlab, encLabels_append, List.append_assoc, List.take_left, List.append_nil]
    | none =>
      have hnone := List.find?_eq_none.1 hfind
      have hlen : (encLabels pre).length + l.length + 1 = (encLabels (pre ++ [l])).length := by
        rw [encLabels_append]
        simp [encLabels]; omega
      rw [hlen]
      have hok' : OkLabels ls := fun a ha => hok a (by simp [ha])
      rcases ih (pre ++ [l]) f (by simp [hlab]) hok' (by simp at hf; omega) with ⟨h1, h2⟩ | h
      · left
        refine ⟨h1, ?_⟩
        intro s hs hn o ho b he
        rcases List.suffix_cons_iff.1 hs with rfl | hs'
        · have := hnone o ho
          rw [he.lmatch_iff hd hok (by simp)] at this
          simp at this
        · exact h2 s hs' hn o ho b he
      · right
        obtain ⟨ls1, ls2, o, b, e1, e2, e3, e4, e5⟩ := h
        exact ⟨l :: ls1, ls2, o, b, by simp [e1], e2, e3, e4, by rw [e5]; simp⟩

/-- Offsets of the labels of a run that starts at `o`. -/
def labelOffs : Nat → List Bytes → List Nat
  | _, [] => []
  | o, l :: ls => o :: labelOffs (o + (l.length + 1)) ls

theorem labelOffs_mem : ∀ (ls : List Bytes) (o k : Nat), k ∈ labelOffs o ls ↔
    ∃ a c, ls = a ++ c ∧ c ≠ [] ∧ k = o + (encLabels a).length := by
  intro ls
  induction ls with
  | nil =>
    intro o k
    simp only [labelOffs, List.not_mem_nil, false_iff]
    rintro ⟨a, c, h, hc, _⟩
    have := List.append_eq_nil_iff.1 h.symm
    exact hc this.2
  | cons l ls ih =>
    intro o k
    simp only [labelOffs, List.mem_cons, ih]
    constructor
    · rintro (rfl | ⟨a, c, h, hc, rfl⟩)
      · exact ⟨[], l :: ls, rfl, by simp, by simp [encLabels]⟩
      · refine ⟨l :: a, c, by simp [h], hc, ?_⟩
        rw [encLabels_cons]; simp; omega
    · rintro ⟨a, c, h, hc, rfl⟩
      cases a with
      | nil => left; simp [encLabels]
      | cons x a =>
        right
        simp only [List.cons_append, List.cons.injEq] at h
        obtain ⟨rfl, h⟩ := h
        refine ⟨a, c, h, hc, ?_⟩
        rw [encLabels_cons]; simp; omega

theorem addLabelsF_spec (out : Bytes) (base : Nat) (b : UInt8) (r : Bytes) (hb : Term b) :
    ∀ (ls : List Bytes) (x fuel : Nat) (labels : List Nat),
    out.drop x = encLabels ls ++ b :: r → OkLabels ls → ls.length + 1 ≤ fuel →
    addLabelsF out base fuel x labels =
      labels ++ (labelOffs (base + x) ls).take (maxNumLabels - labels.length) := by
  intro ls
  induction ls with
  | nil =>
    intro x fuel labels hd _ hf
    obtain ⟨f, rfl⟩ : ∃ f, fuel = f + 1 := ⟨fuel - 1, by omega⟩
    have hd' : out.drop x = b :: r := hd
    unfold addLabelsF
    simp only [getD_of_drop hd', labelOffs, List.take_nil, List.append_nil]
    rcases hb with hb | hb
    · simp [hb]
    · split
      · rfl
      · split
        · rfl
        · rfl
  | cons l ls ih =>
    intro x fuel labels hd hok hf
    obtain ⟨f, rfl⟩ : ∃ f, fuel = f + 1 := ⟨fuel - 1, by omega⟩
    have hd' := hd
    rw [encLabels_cons, List.cons_append, List.append_assoc] at hd'
    have hl := lenByte l (hok l (by simp))
    unfold addLabelsF
    simp only [getD_of_drop hd', hl.2.1, if_false, hl.2.2, Bool.false_eq_true, hl.1]
    split
    · rename_i h
      have : maxNumLabels - labels.length = 0 := by omega
      simp [this]
    · rename_i h
      have hlt : labels.length < maxNumLabels := by omega
      have hd2 := drop_append_len (drop_cons_succ hd')
      have e : x + 1 + l.length = x + l.length + 1 := by omega
      rw [e] at hd2
      rw [ih (x + l.length + 1) f (labels ++ [base + x]) hd2
        (fun a ha => hok a (by simp [ha])) (by simp at hf; omega)]
      obtain ⟨k, hk⟩ : ∃ k, maxNumLabels - labels.length = k + 1 := ⟨maxNumLabels - labels.length - 1, by omega⟩
      have hk' : maxNumLabels - (labels ++ [base + x]).length = k := by simp; omega
      rw [hk, hk', labelOffs, List.take_succ_cons]
      simp [Nat.add_assoc]

theorem ptr_isPtr : ∀ b : UInt8, isPtr (b ||| 0xc0) = true := by
  apply forall_byte
  decide +kernel

theorem term_ptr (o : Nat) : Term ((UInt8.ofNat (o >>> 8)) ||| 0xc0) := .inr (ptr_isPtr _)

/-- The complete effect of `_host` on a well-formed name. -/
theorem host_spec (m : Builder) (n : Bytes) (hn : HostName n) (ht : Table m.pkt m.labels) :
    ∃ ls1 tail, (host m n).1.pkt = m.pkt ++ (encLabels ls1 ++ tail) ∧
      (host m n).2 = (encLabels ls1 ++ tail).length ∧
      (host m n).1.labels = m.labels ++ (labelOffs m.pkt.length ls1).take (maxNumLabels - m.labels.length) ∧
      ((ls1 = labelsOf n ∧ tail = [0] ∧
          ∀ s, s <:+ labelsOf n → s ≠ [] → ∀ o ∈ m.labels, ∀ b, ¬ Entry m.pkt o s b) ∨
       (∃ ls2 o b, labelsOf n = ls1 ++ ls2 ∧ ls2 ≠ [] ∧ o ∈ m.labels ∧ Entry m.pkt o ls2 b ∧
          tail = ptrBytes o)) := by
  have hlab := mkLabel_eq n hn
  have hok : OkLabels (labelsOf n) := hn.labels
  unfold host
  simp only [hlab]
  have hlen : (labelsOf n).length + 1 ≤ (encLabels (labelsOf n) ++ [0]).length := by
    have := length_le_enc (labelsOf n)
    simp; omega
  rcases compressF_spec (encLabels (labelsOf n) ++ [0]) m.pkt m.labels ht (labelsOf n) [] (encLabels (labelsOf n) ++ [0]).length
    (by simp) hok hlen with ⟨h1, h2⟩ | ⟨ls1, ls2, o, b, e1, e2, e3, e4, e5⟩
  · have h1' : compressF (encLabels (labelsOf n) ++ [0]) m.pkt m.labels
        (encLabels (labelsOf n) ++ [0]).length 0 = encLabels (labelsOf n) ++ [0] := h1
    rw [h1']
    refine ⟨labelsOf n, [0], rfl, rfl, ?_, .inl ⟨rfl, rfl, h2⟩⟩
    have := addLabelsF_spec (encLabels (labelsOf n) ++ [0]) m.pkt.length 0 [] (.inl rfl) (labelsOf n) 0
      (encLabels (labelsOf n) ++ [0]).length m.labels (by simp) hok hlen
    rw [this]; simp
  · have h1' : compressF (encLabels (labelsOf n) ++ [0]) m.pkt m.labels
        (encLabels (labelsOf n) ++ [0]).length 0 = encLabels ls1 ++ ptrBytes o := e5
    rw [h1']
    have hok1 : OkLabels ls1 := fun a ha => hok a (by rw [e1]; simp [ha])
    refine ⟨ls1, ptrBytes o, rfl, rfl, ?_, .inr ⟨ls2, o, b, e1, e2, e3, e4, rfl⟩⟩
    have hlen1 := length_le_enc ls1
    have := addLabelsF_spec (encLabels ls1 ++ ptrBytes o) m.pkt.length ((UInt8.ofNat (o >>> 8)) ||| 0xc0)
      [UInt8.ofNat o] (term_ptr o) ls1 0
      (encLabels ls1 ++ ptrBytes o).length m.labels (by simp [ptrBytes]) hok1
      (by simp [ptrBytes]; omega)
    rw [this]; simp

end Mdns
