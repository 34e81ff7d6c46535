import Verif.Model.Conf

/-!
# C47, C48, C51: service files and host names
-/

namespace Mdns.Conf

open Mdns.CLib

/-! ### C51: specification -/

/-- A line sets `k` to `v`: it starts with the keyword, followed by a space or
a tab and the value.  Comment lines set nothing. -/
def Sets (line k v : Bytes) : Prop :=
  ∃ sep, (sep = 0x20 ∨ sep = 0x09) ∧ line = k ++ sep :: v ∧
    (0x20 : UInt8) ∉ k ∧ (0x09 : UInt8) ∉ k ∧ k.head? ≠ some 0x23

/-- The values a list of lines gives to a keyword, in order. -/
inductive Values (k : Bytes) : List Bytes → List Bytes → Prop where
  | nil : Values k [] []
  | set {l v ls vs} (h : Sets l k v) (t : Values k ls vs) : Values k (l :: ls) (v :: vs)
  | skip {l ls vs} (h : ∀ v, ¬ Sets l k v) (t : Values k ls vs) : Values k (l :: ls) vs

/-- A line as editors write it: not empty, shorter than the buffer. -/
structure Plain (l : Bytes) : Prop where
  ne : l ≠ []
  short : l.length ≤ 254
  nl : (0x0A : UInt8) ∉ l
  nul : (0 : UInt8) ∉ l

/-! ### C51: proofs -/

theorem takeWhile_all {α : Type} (p : α → Bool) (l : List α) (h : ∀ x ∈ l, p x = true) :
    l.takeWhile p = l := by
  induction l with
  | nil => rfl
  | cons a t ih =>
    rw [List.takeWhile_cons, if_pos (h a (by simp)), ih (fun x hx => h x (by simp [hx]))]

theorem takeWhile_stop {α : Type} (p : α → Bool) (l r : List α) (a : α)
    (h : ∀ x ∈ l, p x = true) (ha : p a = false) : (l ++ a :: r).takeWhile p = l := by
  induction l with
  | nil => simp [ha]
  | cons b t ih =>
    rw [List.cons_append, List.takeWhile_cons, if_pos (h b (by simp)),
      ih (fun x hx => h x (by simp [hx]))]

theorem sep_iff (c : UInt8) : (!(c == 0x20 || c == 0x09)) = true ↔ c ≠ 0x20 ∧ c ≠ 0x09 := by
  simp

theorem split_cases (l : Bytes) :
    (∀ x ∈ l, (!(x == 0x20 || x == 0x09)) = true) ∨
    ∃ k sep v, (sep = 0x20 ∨ sep = 0x09) ∧ l = k ++ sep :: v ∧ (0x20 : UInt8) ∉ k ∧ (0x09 : UInt8) ∉ k := by
  induction l with
  | nil => left; simp
  | cons a t ih =>
    by_cases ha : a = 0x20 ∨ a = 0x09
    · right; exact ⟨[], a, t, ha, rfl, by simp, by simp⟩
    · simp only [not_or] at ha
      rcases ih with h | ⟨k, sep, v, hs, rfl, h1, h2⟩
      · left
        intro x hx
        rcases List.mem_cons.1 hx with rfl | hx
        · exact (sep_iff x).2 ha
        · exact h x hx
      · right
        refine ⟨a :: k, sep, v, hs, rfl, ?_, ?_⟩
        · simp only [List.mem_cons, not_or]; exact ⟨fun e => ha.1 e.symm, h1⟩
        · simp only [List.mem_cons, not_or]; exact ⟨fun e => ha.2 e.symm, h2⟩

theorem strsep_sets (k v : Bytes) (sep : UInt8) (hs : sep = 0x20 ∨ sep = 0x09)
    (h1 : (0x20 : UInt8) ∉ k) (h2 : (0x09 : UInt8) ∉ k) :
    strsep (k ++ sep :: v) = (k, some v) := by
  have ht : (k ++ sep :: v).takeWhile (fun c => !(c == 0x20 || c == 0x09)) = k := by
    refine takeWhile_stop _ _ _ _ (fun x hx => ?_) ?_
    · rw [sep_iff]
      exact ⟨fun e => h1 (e ▸ hx), fun e => h2 (e ▸ hx)⟩
    · rcases hs with rfl | rfl <;> rfl
  unfold strsep
  simp only [ht]
  simp

theorem strsep_none (l : Bytes) (h : ∀ x ∈ l, (!(x == 0x20 || x == 0x09)) = true) :
    strsep l = (l, none) := by
  unfold strsep
  simp only [takeWhile_all _ _ h]
  simp

theorem Sets.unique {l k v k' v' : Bytes} (h : Sets l k v) (h' : Sets l k' v') : k = k' ∧ v = v' := by
  obtain ⟨sep, hs, rfl, h1, h2, -⟩ := h
  obtain ⟨sep', hs', e, h1', h2', -⟩ := h'
  have a := strsep_sets k v sep hs h1 h2
  rw [e, strsep_sets _ _ _ hs' h1' h2'] at a
  simp at a
  exact ⟨a.1.symm, a.2.symm⟩

/-- What a setting does to the record. -/
def assign (k v : Bytes) (s : SRec) : SRec where
  type := if k = kwType then some v else s.type
  name := if k = kwName then some v else s.name
  port := if k = kwPort then atoi v else s.port
  target := if k = kwTarget then some v else s.target
  cname := if k = kwCname then some v else s.cname
  txt := if k = kwTxt ∧ s.txt.length < 42 then s.txt ++ [v] else s.txt

theorem chomp_plain (l : Bytes) (h : Plain l) : chomp l = .ok (some l) ∧
    chomp (l ++ [0x0A]) = .ok (some l) := by
  have hne := h.ne
  have hr : (l.reverse.dropWhile (· == 0x0A)).reverse = l := by
    cases hl : l.reverse with
    | nil => simp at hl; exact absurd hl hne
    | cons a t =>
      have : a ≠ 0x0A := fun e => h.nl (by
        have : a ∈ l.reverse := by simp [hl]
        exact e ▸ (List.mem_reverse.1 this))
      rw [List.dropWhile_cons, if_neg (by simpa using this), ← hl, List.reverse_reverse]
  have ha : l.all (· == 0x0A) = false := by
    rw [Bool.eq_false_iff]
    intro e
    rw [List.all_eq_true] at e
    cases l with
    | nil => exact hne rfl
    | cons a t =>
      have := e a (by simp)
      simp at this
      exact h.nl (by simp [this])
  constructor
  · unfold chomp
    rw [if_neg hne, if_neg (by simp [ha]), hr]
  · unfold chomp
    have e1 : l ++ [0x0A] ≠ [] := by simp
    have e2 : ((l ++ [0x0A]).all (· == 0x0A)) = false := by simp [List.all_append, ha]
    rw [if_neg e1, if_neg (by simp [e2])]
    simp [hr]

theorem readLine_cases (l line : Bytes) (s : SRec) (hc : chomp line = .ok (some l)) :
    (∃ k v, Sets l k v ∧ readLine line s = .ok (assign k v s)) ∨
    ((∀ k v, ¬ Sets l k v) ∧ readLine line s = .ok s) := by
  unfold readLine
  rw [hc]
  by_cases hh : l.head? = some 0x23
  · right
    simp only [if_pos hh, and_true]
    rintro k v ⟨sep, hs, rfl, h1, h2, h3⟩
    cases k with
    | nil => rcases hs with rfl | rfl <;> simp at hh
    | cons a t => simp at hh h3; exact h3 hh
  · simp only [if_neg hh]
    rcases split_cases l with h | ⟨k, sep, v, hs, rfl, h1, h2⟩
    · right
      rw [strsep_none l h]
      refine ⟨?_, rfl⟩
      rintro k v ⟨sep, hs, rfl, -⟩
      have := h sep (by simp)
      rcases hs with rfl | rfl <;> simp at this
    · left
      refine ⟨k, v, ⟨sep, hs, rfl, h1, h2, ?_⟩, ?_⟩
      · cases k with
        | nil => simp
        | cons a t => simpa using hh
      · rw [strsep_sets _ _ _ hs h1 h2]
        simp only [assign, atoi]
        by_cases e1 : k = kwType
        · subst e1; rfl
        by_cases e2 : k = kwName
        · subst e2; rfl
        by_cases e3 : k = kwPort
        · subst e3; rfl
        by_cases e4 : k = kwTarget
        · subst e4; rfl
        by_cases e5 : k = kwCname
        · subst e5; rfl
        simp only [if_neg e1, if_neg e2, if_neg e3, if_neg e4, if_neg e5]
        split <;> rfl

/-- The record a list of lines gives, from the values of each keyword. -/
def built (ty nm po ta cn tx : List Bytes) (s : SRec) : SRec where
  type := ty.getLast?.or s.type
  name := nm.getLast?.or s.name
  port := (po.getLast?.map atoi).getD s.port
  target := ta.getLast?.or s.target
  cname := cn.getLast?.or s.cname
  txt := s.txt ++ tx.take (42 - s.txt.length)

/-- The lines one after the other. -/
def readAll : List Bytes → SRec → Rd SRec
  | [], s => .ok s
  | l :: ls, s =>
    match readLine l s with
    | .oob => .oob
    | .ok s => readAll ls s

theorem getLast?_or (v : Bytes) (vs : List Bytes) (o : Option Bytes) :
    (v :: vs).getLast?.or o = vs.getLast?.or (some v) := by
  cases vs with
  | nil => simp
  | cons a t => simp [List.getLast?_cons]

theorem values_cons {k l k' v : Bytes} {ls vs : List Bytes} (hs : Sets l k' v) (h : Values k ls vs) :
    Values k (l :: ls) (if k' = k then v :: vs else vs) := by
  by_cases e : k' = k
  · subst e; rw [if_pos rfl]; exact .set hs h
  · rw [if_neg e]
    exact .skip (fun w hw => e (hs.unique hw).1) h

theorem readAll_values (ls : List (Bytes × Bytes)) (s : SRec) (ht : s.txt.length ≤ 42)
    (h : ∀ p ∈ ls, chomp p.2 = .ok (some p.1)) :
    ∃ ty nm po ta cn tx, Values kwType (ls.map (·.1)) ty ∧ Values kwName (ls.map (·.1)) nm ∧
      Values kwPort (ls.map (·.1)) po ∧ Values kwTarget (ls.map (·.1)) ta ∧
      Values kwCname (ls.map (·.1)) cn ∧ Values kwTxt (ls.map (·.1)) tx ∧
      readAll (ls.map (·.2)) s = .ok (built ty nm po ta cn tx s) := by
  induction ls generalizing s with
  | nil => exact ⟨[], [], [], [], [], [], .nil, .nil, .nil, .nil, .nil, .nil, by simp [readAll, built]⟩
  | cons p ps ih =>
    have hp := h p (by simp)
    have hps := fun q hq => h q (List.mem_cons_of_mem _ hq)
    rcases readLine_cases p.1 p.2 s hp with ⟨k, v, hs, hr⟩ | ⟨no, hr⟩
    · have hl : (assign k v s).txt.length ≤ 42 := by
        simp only [assign]; split
        · simp; omega
        · exact ht
      obtain ⟨ty, nm, po, ta, cn, tx, h1, h2, h3, h4, h5, h6, h7⟩ := ih (assign k v s) hl hps
      refine ⟨_, _, _, _, _, _, values_cons hs h1, values_cons hs h2, values_cons hs h3,
        values_cons hs h4, values_cons hs h5, values_cons hs h6, ?_⟩
      simp only [List.map_cons, readAll, hr]
      rw [h7]
      congr 1
      simp only [built, assign, SRec.mk.injEq]
      refine ⟨?_, ?_, ?_, ?_, ?_, ?_⟩
      · split <;> simp [getLast?_or]
      · split <;> simp [getLast?_or]
      · split
        · cases po with
          | nil => simp
          | cons a t => simp [List.getLast?_cons]
        · rfl
      · split <;> simp [getLast?_or]
      · split <;> simp [getLast?_or]
      · by_cases e : k = kwTxt
        · by_cases hlt : s.txt.length < 42
          · rw [if_pos ⟨e, hlt⟩, if_pos e]
            have : 42 - s.txt.length = (42 - (s.txt.length + 1)) + 1 := by omega
            simp [this]
          · rw [if_neg (fun x => hlt x.2), if_pos e]
            have : 42 - s.txt.length = 0 := by omega
            simp [this]
        · rw [if_neg (fun x => e x.1), if_neg e]
    · obtain ⟨ty, nm, po, ta, cn, tx, h1, h2, h3, h4, h5, h6, h7⟩ := ih s ht hps
      refine ⟨_, _, _, _, _, _, .skip (no _) h1, .skip (no _) h2, .skip (no _) h3,
        .skip (no _) h4, .skip (no _) h5, .skip (no _) h6, ?_⟩
      simp only [List.map_cons, readAll, hr]
      exact h7

theorem cstr_noNul (l : Bytes) (h : (0 : UInt8) ∉ l) : cstr l = l :=
  takeWhile_all _ _ (fun x hx => by simp; rintro rfl; exact h hx)

theorem fgets_line (l rest : Bytes) (h : Plain l) :
    fgets 256 (l ++ 0x0A :: rest) = (l ++ [0x0A], rest) := by
  have ht : (l ++ 0x0A :: rest).takeWhile (· != 0x0A) = l :=
    takeWhile_stop _ _ _ _ (fun x hx => by simp; rintro rfl; exact h.nl hx) rfl
  have hs := h.short
  unfold fgets
  simp only [ht]
  have : min (256 - 1) (l.length + 1) = l.length + 1 := by omega
  rw [this]
  have e : l ++ 0x0A :: rest = (l ++ [0x0A]) ++ rest := by simp
  rw [e, List.take_left' (by simp), List.drop_left' (by simp)]

theorem fgets_last (l : Bytes) (h : Plain l) : fgets 256 l = (l, []) := by
  have ht : l.takeWhile (· != 0x0A) = l :=
    takeWhile_all _ _ (fun x hx => by simp; rintro rfl; exact h.nl hx)
  have hs := h.short
  unfold fgets
  simp only [ht]
  have : min (256 - 1) (l.length + 1) = l.length + 1 := by omega
  rw [this, List.take_of_length_le (by omega), List.drop_of_length_le (by omega)]

/-- A file: lines ended by newlines, possibly a last one without. -/
def fileOf (lines : List Bytes) (last : Option Bytes) : Bytes :=
  lines.flatMap (fun l => l ++ [0x0A]) ++ last.getD []

theorem parseLoop_lines (lines : List Bytes) (last : Option Bytes) (n : Nat) (s : SRec)
    (hl : ∀ l ∈ lines, Plain l) (hlast : ∀ l, last = some l → Plain l)
    (hn : (fileOf lines last).length ≤ n) :
    parseLoop n (fileOf lines last) s =
      readAll (lines.map (· ++ [0x0A]) ++ last.toList) s := by
  induction lines generalizing n s with
  | nil =>
    cases last with
    | none =>
      have : fileOf [] none = [] := rfl
      rw [this]
      cases n <;> simp [parseLoop, readAll]
    | some l =>
      have hp := hlast l rfl
      have : fileOf [] (some l) = l := rfl
      rw [this] at hn ⊢
      have hpos : 0 < l.length := List.length_pos_iff.2 hp.ne
      obtain ⟨m, rfl⟩ : ∃ m, n = m + 1 := ⟨n - 1, by omega⟩
      simp only [parseLoop, if_neg hp.ne, fgets_last l hp, cstr_noNul l hp.nul, List.map_nil,
        List.nil_append, Option.toList_some, readAll]
      cases readLine l s with
      | oob => rfl
      | ok s' => cases m <;> simp [parseLoop]
  | cons l ls ih =>
    have hp := hl l (by simp)
    have e : fileOf (l :: ls) last = l ++ 0x0A :: fileOf ls last := by simp [fileOf]
    rw [e] at hn ⊢
    simp only [List.length_append, List.length_cons] at hn
    obtain ⟨m, rfl⟩ : ∃ m, n = m + 1 := ⟨n - 1, by omega⟩
    have hnul : (0 : UInt8) ∉ l ++ [0x0A] := by
      simp only [List.mem_append, List.mem_singleton, not_or]
      exact ⟨hp.nul, by decide⟩
    simp only [parseLoop, fgets_line l _ hp, cstr_noNul _ hnul, List.map_cons, List.cons_append, readAll]
    rw [if_neg (by simp)]
    cases readLine (l ++ [0x0A]) s with
    | oob => rfl
    | ok s' => exact ih m s' (fun x hx => hl x (by simp [hx])) (by omega)

/-- **C51.** A service file of lines that are not empty and fit in the buffer is
read without leaving the buffer.  Each field has the last value its keyword is
given, `txt` collects the first 42 values in order; comments, unknown keywords
and lines without value have no effect. -/
theorem C51_lines_partial (lines : List Bytes) (last : Option Bytes)
    (hl : ∀ l ∈ lines, Plain l) (hlast : ∀ l, last = some l → Plain l) :
    ∃ s ty nm po ta cn tx, parse (fileOf lines last) = .ok s ∧
      Values kwType (lines ++ last.toList) ty ∧ s.type = ty.getLast? ∧
      Values kwName (lines ++ last.toList) nm ∧ s.name = nm.getLast? ∧
      Values kwPort (lines ++ last.toList) po ∧ s.port = (po.getLast?.map atoi).getD 0 ∧
      Values kwTarget (lines ++ last.toList) ta ∧ s.target = ta.getLast? ∧
      Values kwCname (lines ++ last.toList) cn ∧ s.cname = cn.getLast? ∧
      Values kwTxt (lines ++ last.toList) tx ∧ s.txt = tx.take 42 := by
  have key := readAll_values (lines.map (fun l => (l, l ++ [0x0A])) ++ last.toList.map (fun l => (l, l))) {}
    (by simp) (by
      intro p hp
      simp only [List.mem_append, List.mem_map, Option.mem_toList] at hp
      rcases hp with ⟨l, hm, rfl⟩ | ⟨l, hm, rfl⟩
      · exact (chomp_plain l (hl l hm)).2
      · exact (chomp_plain l (hlast l hm)).1)
  have e1 : (lines.map (fun l => (l, l ++ [0x0A])) ++ last.toList.map (fun l => (l, l))).map (·.1) =
      lines ++ last.toList := by simp [Function.comp_def]
  have e2 : (lines.map (fun l => (l, l ++ [0x0A])) ++ last.toList.map (fun l => (l, l))).map (·.2) =
      lines.map (· ++ [0x0A]) ++ last.toList := by simp [Function.comp_def]
  rw [e1, e2] at key
  obtain ⟨ty, nm, po, ta, cn, tx, h1, h2, h3, h4, h5, h6, h7⟩ := key
  refine ⟨built ty nm po ta cn tx {}, ty, nm, po, ta, cn, tx, ?_, h1, ?_, h2, ?_, h3, ?_, h4, ?_, h5, ?_, h6, ?_⟩
  · unfold parse
    rw [parseLoop_lines lines last _ _ hl hlast (Nat.le_refl _)]
    exact h7
  all_goals simp [built]

/-- A file with a comment, a repeated keyword, an unknown keyword and a last
line without newline meets the hypotheses, and `name` has the last value. -/
example : ∃ s, parse (fileOf [0x23 :: kwName ++ [0x20, 0x7A], kwName ++ [0x20, 0x61],
      kwPort ++ [0x20, 0x38, 0x30], [0x71, 0x20, 0x61], kwName ++ [0x09, 0x62, 0x20, 0x63]]
      (some (kwTxt ++ [0x20, 0x61, 0x3D, 0x62]))) = .ok s ∧
    s.name = some [0x62, 0x20, 0x63] ∧ s.port = 80 ∧ s.txt = [[0x61, 0x3D, 0x62]] ∧ s.type = none := by
  refine ⟨{ name := some [0x62, 0x20, 0x63], port := 80, txt := [[0x61, 0x3D, 0x62]] }, by decide +kernel,
    rfl, rfl, rfl, rfl⟩

theorem plain_of (l : Bytes) (h : l ≠ [] ∧ l.length ≤ 254 ∧ (0x0A : UInt8) ∉ l ∧ (0 : UInt8) ∉ l) : Plain l :=
  ⟨h.1, h.2.1, h.2.2.1, h.2.2.2⟩

example : (∀ l ∈ [0x23 :: kwName ++ [0x20, 0x7A], kwName ++ [0x20, 0x61],
      kwPort ++ [0x20, 0x38, 0x30], [0x71, 0x20, 0x61], kwName ++ [0x09, 0x62, 0x20, 0x63]], Plain l) ∧
    Plain (kwTxt ++ [0x20, 0x61, 0x3D, 0x62]) := by
  refine ⟨fun l hl => plain_of l ?_, plain_of _ (by decide)⟩
  revert l; decide

/-- The claim fails for an empty line: the byte before the buffer is read. -/
theorem C51_empty_line_counterexample (lines : List Bytes) (rest : Bytes) (hl : ∀ l ∈ lines, Plain l) :
    parse (fileOf lines none ++ 0x0A :: rest) = .oob := by
  suffices H : ∀ n s, (fileOf lines none ++ 0x0A :: rest).length ≤ n →
      parseLoop n (fileOf lines none ++ 0x0A :: rest) s = .oob from H _ _ (Nat.le_refl _)
  induction lines with
  | nil =>
    intro n s hn
    have e : fileOf [] none ++ 0x0A :: rest = 0x0A :: rest := rfl
    rw [e] at hn ⊢
    obtain ⟨m, rfl⟩ : ∃ m, n = m + 1 := ⟨n - 1, by simp at hn; omega⟩
    have hg : (fgets 256 (0x0A :: rest)).1 = [0x0A] := by simp [fgets]
    rw [parseLoop, if_neg (by simp), hg]
    rfl
  | cons l ls ih =>
    intro n s hn
    have hp := hl l (by simp)
    have e : fileOf (l :: ls) none ++ 0x0A :: rest = l ++ 0x0A :: (fileOf ls none ++ 0x0A :: rest) := by
      simp [fileOf]
    rw [e] at hn ⊢
    rw [List.length_append, List.length_cons] at hn
    obtain ⟨m, rfl⟩ : ∃ m, n = m + 1 := ⟨n - 1, by omega⟩
    have hnul : (0 : UInt8) ∉ l ++ [0x0A] := by
      simp only [List.mem_append, List.mem_singleton, not_or]
      exact ⟨hp.nul, by decide⟩
    rw [parseLoop, if_neg (by simp), fgets_line l _ hp, cstr_noNul _ hnul]
    rcases readLine_cases l _ s (chomp_plain l hp).2 with ⟨k, v, -, hr⟩ | ⟨-, hr⟩ <;>
    · rw [hr]; exact ih (fun x hx => hl x (by simp [hx])) m _ (by omega)

/-- The claim fails for a line longer than the buffer: here a comment sets the
name. -/
theorem C51_long_line_counterexample : ∃ comment : Bytes, comment.head? = some 0x23 ∧
    (0x0A : UInt8) ∉ comment ∧ parse (comment ++ [0x0A]) = .ok { name := some [0x62] } :=
  ⟨List.replicate 255 0x23 ++ kwName ++ [0x20, 0x62], by decide +kernel, by decide +kernel, by decide +kernel⟩

/-! ### Decimal numbers -/

theorem digits_append (a : Nat) (l r : Bytes) : digits a (l ++ r) = digits (digits a l) r :=
  List.foldl_append

theorem digit_byte (d : Nat) (h : d < 10) :
    (UInt8.ofNat (0x30 + d)).toNat = 0x30 + d := by
  rw [UInt8.toNat_ofNat']
  omega

theorem decimal_value (n : Nat) : digits 0 (decimal n) = n := by
  fun_induction decimal n with
  | case1 n h => simp only [digits, List.foldl, digit_byte n h]; omega
  | case2 n h ih =>
    rw [digits_append, ih]
    simp only [digits, List.foldl, digit_byte (n % 10) (by omega)]
    omega

theorem decimal_inj (n m : Nat) (h : decimal n = decimal m) : n = m := by
  rw [← decimal_value n, h, decimal_value m]

theorem isDigit_iff (c : UInt8) : isDigit c = true ↔ 0x30 ≤ c.toNat ∧ c.toNat ≤ 0x39 := by
  simp [isDigit, UInt8.le_iff_toNat_le]

theorem decimal_isDigit (n : Nat) : ∀ c ∈ decimal n, isDigit c = true := by
  fun_induction decimal n with
  | case1 n h =>
    intro c hc
    simp only [List.mem_singleton] at hc
    rw [isDigit_iff, hc, digit_byte n h]; omega
  | case2 n h ih =>
    intro c hc
    rcases List.mem_append.1 hc with hc | hc
    · exact ih c hc
    · simp only [List.mem_singleton] at hc
      rw [isDigit_iff, hc, digit_byte (n % 10) (by omega)]; omega

theorem decimal_length (n d : Nat) (hd : 0 < d) (h : n < 10 ^ d) : (decimal n).length ≤ d := by
  induction d generalizing n with
  | zero => omega
  | succ d ih =>
    rw [decimal]
    split
    · simp
    · simp only [List.length_append, List.length_singleton]
      rcases Nat.eq_zero_or_pos d with rfl | hd'
      · simp at h; omega
      · have : n / 10 < 10 ^ d := by
          rw [Nat.div_lt_iff_lt_mul (by omega)]
          rw [Nat.pow_succ] at h; omega
        have := ih (n / 10) hd' this
        omega

theorem decimal_ne (n : Nat) : decimal n ≠ [] := by
  rw [decimal]; split <;> simp

/-- A plain number is read as that number. -/
theorem atoi_decimal (n : Nat) (h : n < 2 ^ 31) : atoi (decimal n) = n := by
  have hd := decimal_isDigit n
  have hne := decimal_ne n
  cases hl : decimal n with
  | nil => exact absurd hl hne
  | cons c cs =>
    have hc : isDigit c = true := hd c (by simp [hl])
    have hc2 := (isDigit_iff c).1 hc
    have hs : isSpace c = false := by
      rw [Bool.eq_false_iff]
      intro e
      simp [isSpace, UInt8.le_iff_toNat_le] at e
      rcases e with e | e
      · subst e; simp at hc2
      · omega
    have n1 : c ≠ 0x2D := by rintro rfl; simp at hc2
    have n2 : c ≠ 0x2B := by rintro rfl; simp at hc2
    have htw : (c :: cs).takeWhile isDigit = c :: cs :=
      takeWhile_all _ _ (fun x hx => hd x (by simpa [hl] using hx))
    have hv : digits 0 (c :: cs) = n := by rw [← hl]; exact decimal_value n
    have e : strtol (c :: cs) = n := by
      unfold strtol
      have hdw : (c :: cs).dropWhile isSpace = c :: cs := by simp [hs]
      have b1 : ((c :: cs).head? == some (0x2D : UInt8)) = false := by simpa using n1
      have b2 : ((c :: cs).head? == some (0x2B : UInt8)) = false := by simpa using n2
      simp only [hdw, b1, b2, Bool.or_self, Bool.false_eq_true, if_false, htw, hv]
      omega
    rw [atoi, e, toInt32, BitVec.toInt_ofInt]
    simp only [Int.bmod_def]
    omega

/-- A value that starts with the number `n` as people write it: after spaces there may be a sign, and anything but a further digit follows. -/
def Number (v : Bytes) (n : Int) : Prop :=
  ∃ spaces sign rest k, v = spaces ++ sign ++ decimal k ++ rest ∧ k < 2 ^ 31 ∧ (∀ c ∈ spaces, c ∈ [0x20, 0x09, 0x0A, 0x0B, 0x0C, 0x0D]) ∧
    (∀ c, rest.head? = some c → c.toNat < 0x30 ∨ 0x39 < c.toNat) ∧ ((sign = [] ∨ sign = [0x2B]) ∧ n = k ∨ sign = [0x2D] ∧ n = -k)

theorem takeWhile_digits {ds rest : Bytes} (h : ∀ c ∈ ds, isDigit c = true) (hr : ∀ c, rest.head? = some c → c.toNat < 0x30 ∨ 0x39 < c.toNat) :
    (ds ++ rest).takeWhile isDigit = ds := by
  induction ds with
  | nil =>
    cases rest with
    | nil => rfl
    | cons c cs =>
      have := hr c rfl
      have hf : isDigit c = false := by
        rw [Bool.eq_false_iff]
        intro e
        have := (isDigit_iff c).1 e
        omega
      simp [hf]
  | cons d ds ih =>
    simp only [List.mem_cons, forall_eq_or_imp] at h
    simp [h.1, ih h.2]

theorem dropWhile_spaces {ws s : Bytes} (h : ∀ c ∈ ws, isSpace c = true) (hs : ∀ c, s.head? = some c → isSpace c = false) :
    (ws ++ s).dropWhile isSpace = s := by
  induction ws with
  | nil =>
    cases s with
    | nil => rfl
    | cons c cs => simp [hs c rfl]
  | cons d ds ih =>
    simp only [List.mem_cons, forall_eq_or_imp] at h
    simp [h.1, ih h.2]

theorem atoi_number {v : Bytes} {n : Int} (h : Number v n) : atoi v = n := by
  obtain ⟨ws, sign, rest, k, rfl, hk, hw, hr, hn⟩ := h
  have hd := decimal_isDigit k
  have hne := decimal_ne k
  obtain ⟨c, cs, hl⟩ : ∃ c cs, decimal k = c :: cs := by
    cases hl : decimal k with
    | nil => exact absurd hl hne
    | cons c cs => exact ⟨c, cs, rfl⟩
  have hc := (isDigit_iff c).1 (hd c (by simp [hl]))
  have hsp : ∀ c ∈ ws, isSpace c = true := by
    intro c m
    have := hw c m
    simp only [List.mem_cons, List.not_mem_nil, or_false] at this
    rcases this with rfl | rfl | rfl | rfl | rfl | rfl <;> decide
  have hs : isSpace c = false := by
    rw [Bool.eq_false_iff]
    intro e
    simp [isSpace, UInt8.le_iff_toNat_le] at e
    rcases e with e | e
    · subst e; simp at hc
    · omega
  have hdw : ∀ s', s' = sign ++ decimal k ++ rest → (ws ++ sign ++ decimal k ++ rest).dropWhile isSpace = s' := by
    rintro s' rfl
    rw [List.append_assoc, List.append_assoc]
    rw [show sign ++ decimal k ++ rest = sign ++ (decimal k ++ rest) by rw [List.append_assoc]]
    refine dropWhile_spaces hsp fun x hx => ?_
    rcases hn with ⟨rfl | rfl, _⟩ | ⟨rfl, _⟩
    · rw [hl] at hx; cases hx; exact hs
    · cases hx; decide
    · cases hx; decide
  have htw : (decimal k ++ rest).takeWhile isDigit = decimal k := takeWhile_digits hd hr
  have e : strtol (ws ++ sign ++ decimal k ++ rest) = n := by
    unfold strtol
    rw [hdw _ rfl]
    rcases hn with ⟨rfl | rfl, rfl⟩ | ⟨rfl, rfl⟩
    · have n1 : c ≠ 0x2D := by rintro rfl; simp at hc
      have n2 : c ≠ 0x2B := by rintro rfl; simp at hc
      have b1 : (([] ++ decimal k ++ rest).head? == some (0x2D : UInt8)) = false := by rw [hl]; simpa using n1
      have b2 : (([] ++ decimal k ++ rest).head? == some (0x2B : UInt8)) = false := by rw [hl]; simpa using n2
      simp only [b1, b2, Bool.or_self, Bool.false_eq_true, if_false]
      rw [List.nil_append, htw, decimal_value]
      omega
    · simp only [List.cons_append, List.nil_append, List.head?_cons, List.drop_succ_cons, List.drop_zero]
      rw [if_neg (by decide), if_pos (by decide), htw, decimal_value]
      omega
    · simp only [List.cons_append, List.nil_append, List.head?_cons, List.drop_succ_cons, List.drop_zero]
      rw [if_pos (by decide), if_pos (by decide), htw, decimal_value]
      omega
  rw [atoi, e, toInt32, BitVec.toInt_ofInt]
  simp only [Int.bmod_def]
  omega

theorem Values.unique {k : Bytes} {ls : List Bytes} {a b : List Bytes} (h : Values k ls a) (g : Values k ls b) : a = b := by
  induction h generalizing b with
  | nil => cases g; rfl
  | set h t ih =>
    cases g with
    | set h' t' =>
      obtain ⟨s, hs, e, h1, h2, _⟩ := h
      obtain ⟨s', hs', e', _⟩ := h'
      have := List.append_cancel_left (e.symm.trans e')
      cases this
      rw [ih t']
    | skip h' t' => exact absurd h (h' _)
  | skip h t ih =>
    cases g with
    | set h' t' => exact absurd h' (h _)
    | skip h' t' => exact ih t'

/-- C51: the port is the number the last `port` line gives, with or without spaces before it, a sign, or anything after it. -/
theorem C51_port_partial (lines : List Bytes) (last : Option Bytes) (hl : ∀ l ∈ lines, Plain l) (hlast : ∀ l, last = some l → Plain l)
    {po : List Bytes} (hv : Values kwPort (lines ++ last.toList) po) {v : Bytes} (hp : po.getLast? = some v) {n : Int} (hn : Number v n) :
    ∃ s, parse (fileOf lines last) = .ok s ∧ s.port = n := by
  obtain ⟨s, _, _, po', _, _, _, e, _, _, _, _, v', h, _⟩ := C51_lines_partial lines last hl hlast
  rw [v'.unique hv, hp] at h
  exact ⟨s, e, h.trans (atoi_number hn)⟩

/-- ` +80x` starts with the number 80. -/
example : Number [0x0D, 0x20, 0x2B, 0x38, 0x30, 0x78] 80 :=
  ⟨[0x0D, 0x20], [0x2B], [0x78], 80, by decide +kernel, by decide, by decide, by simp, .inl ⟨.inr rfl, rfl⟩⟩

/-! ### C47: rooted names -/

theorem mem_take_length {l : Bytes} {n : Nat} : (l.take n).length ≤ n := by
  simp; omega

/-- The values read so far fit in a line of the file. -/
def Fits (s : SRec) : Prop :=
  (∀ t, s.target = some t → t.length ≤ 248) ∧ (∀ t, s.cname = some t → t.length ≤ 249)

theorem chomp_length (line l : Bytes) (h : chomp line = .ok (some l)) : l.length ≤ line.length := by
  unfold chomp at h
  split at h
  · cases h
  · split at h
    · cases h
    · cases h
      rw [List.length_reverse]
      have := (List.dropWhile_suffix (fun c : UInt8 => c == 0x0A) (l := line.reverse)).length_le
      simpa using this

theorem readLine_fits (line : Bytes) (s s' : SRec) (hl : line.length ≤ 255) (h : readLine line s = .ok s')
    (hf : Fits s) : Fits s' := by
  cases hc : chomp line with
  | oob => unfold readLine at h; rw [hc] at h; cases h
  | ok o =>
    cases o with
    | none => unfold readLine at h; rw [hc] at h; cases h; exact hf
    | some l =>
      have hl' := chomp_length line l hc
      rcases readLine_cases l line s hc with ⟨k, v, ⟨sep, -, e, -⟩, hr⟩ | ⟨-, hr⟩
      · rw [hr] at h
        cases h
        have hlen : l.length = k.length + 1 + v.length := by rw [e]; simp; omega
        constructor
        · intro t ht
          simp only [assign] at ht
          split at ht
          · rename_i hk; cases ht; subst hk; simp at hlen; omega
          · exact hf.1 t ht
        · intro t ht
          simp only [assign] at ht
          split at ht
          · rename_i hk; cases ht; subst hk; simp at hlen; omega
          · exact hf.2 t ht
      · rw [hr] at h; cases h; exact hf

theorem cstr_length (b : Bytes) : (cstr b).length ≤ b.length :=
  (List.takeWhile_prefix _).length_le

theorem parseLoop_fits (n : Nat) (f : Bytes) (s s' : SRec) (h : parseLoop n f s = .ok s') (hf : Fits s) :
    Fits s' := by
  induction n generalizing f s with
  | zero => cases h; exact hf
  | succ n ih =>
    rw [parseLoop] at h
    split at h
    · cases h; exact hf
    · have hlen : (cstr (fgets 256 f).1).length ≤ 255 := by
        refine Nat.le_trans (cstr_length _) ?_
        simp only [fgets, List.length_take]
        omega
      split at h
      · cases h
      · rename_i s1 hr
        exact ih _ _ h (readLine_fits _ _ _ hlen hr hf)

theorem fqdn_short (t : Bytes) (h : t.length ≤ 254) :
    (∃ stem, t = stem ++ [0x2E] ∧ fqdn 256 t = stem ++ [0x2E]) ∨
    ((∀ stem, t ≠ stem ++ [0x2E]) ∧ fqdn 256 t = t ++ [0x2E]) := by
  unfold fqdn snprintf
  by_cases e : t.getLast? = some 0x2E
  · left
    obtain ⟨stem, rfl⟩ := List.getLast?_eq_some_iff.1 e
    refine ⟨stem, rfl, ?_⟩
    rw [if_pos e, List.append_nil, List.take_of_length_le (by simp only [List.length_append, List.length_cons, List.length_nil] at h ⊢; omega)]
  · right
    refine ⟨fun stem hs => e (by simp [hs]), ?_⟩
    rw [if_neg e, List.take_of_length_le (by simp; omega)]

/-- **C47.** The host names a service file gives for `target` and `cname` are
published whole, with one dot appended unless they end with one, and fit in the
buffer; names that do not end with two dots get exactly one. -/
theorem C47_rooted_partial (file : Bytes) (s : SRec) (t : Bytes) (hp : parse file = .ok s)
    (ht : s.target = some t ∨ s.cname = some t) :
    (fqdn 256 t).length < 256 ∧
    (∃ stem, fqdn 256 t = stem ++ [0x2E] ∧ (t = stem ∨ t = stem ++ [0x2E])) ∧
    ((∀ u, t ≠ u ++ [0x2E, 0x2E]) → ∀ u, fqdn 256 t ≠ u ++ [0x2E, 0x2E]) := by
  have hf : Fits s := parseLoop_fits _ _ _ _ hp ⟨(by intro _ h; cases h), (by intro _ h; cases h)⟩
  have hl : t.length ≤ 249 := by
    rcases ht with h | h
    · have := hf.1 t h; omega
    · exact hf.2 t h
  rcases fqdn_short t (by omega) with ⟨stem, h1, h2⟩ | ⟨h1, h2⟩
  · refine ⟨?_, ⟨stem, h2, .inr h1⟩, fun no u hu => no u (by rw [h1, ← h2, hu])⟩
    rw [h2, ← h1]; omega
  · refine ⟨by rw [h2]; simp; omega, ⟨t, h2, .inl rfl⟩, fun _ u hu => ?_⟩
    rw [h2] at hu
    have : t ++ [0x2E] = (u ++ [0x2E]) ++ [0x2E] := by simpa using hu
    exact h1 u (List.append_inj_left' this rfl)

/-- The claim fails for a name that ends with two dots: both stay. -/
theorem C47_two_dots_counterexample :
    ∃ file s t, parse file = .ok s ∧ s.target = some t ∧ ∃ u, fqdn 256 t = u ++ [0x2E, 0x2E] := by
  refine ⟨kwTarget ++ [0x20, 0x61, 0x2E, 0x2E, 0x0A], { target := some [0x61, 0x2E, 0x2E] }, [0x61, 0x2E, 0x2E], by decide +kernel, rfl, [0x61], ?_⟩
  decide +kernel

/-- `target a` and `cname b.` are published as `a.` and `b.`. -/
example : ∃ s, parse (kwTarget ++ [0x20, 0x61, 0x0A] ++ kwCname ++ [0x09, 0x62, 0x2E]) = .ok s ∧
    s.target = some [0x61] ∧ s.cname = some [0x62, 0x2E] ∧
    fqdn 256 [0x61] = [0x61, 0x2E] ∧ fqdn 256 [0x62, 0x2E] = [0x62, 0x2E] := by
  refine ⟨{ target := some [0x61], cname := some [0x62, 0x2E] }, by decide +kernel, rfl, rfl, ?_, ?_⟩ <;>
    decide +kernel

/-! ### C48: host names after conflicts -/

theorem last_run {a b ds es : Bytes} {c : UInt8} (h : a ++ c :: ds = b ++ c :: es) (hd : c ∉ ds) (he : c ∉ es) :
    a = b ∧ ds = es := by
  have key : ∀ (x y : Bytes), c ∉ y → (x ++ c :: y).reverse.takeWhile (· != c) = y.reverse := by
    intro x y hy
    rw [List.reverse_append, List.reverse_cons, List.append_assoc]
    refine takeWhile_stop _ _ _ _ (fun z hz => ?_) (by simp)
    simp only [bne_iff_ne]
    rintro rfl
    exact hy (List.mem_reverse.1 hz)
  have e : ds = es := by
    have := key a ds hd
    rw [h, key b es he] at this
    exact (List.reverse_inj.1 this).symm
  subst e
  exact ⟨List.append_inj_left' h rfl, rfl⟩

theorem dash_digits (n : Nat) : (0x2D : UInt8) ∉ decimal n := by
  intro h
  have := (isDigit_iff _).1 (decimal_isDigit n _ h)
  simp at this

theorem hostname_eq (base : Bytes) (n : Nat) (h1 : 1 < n) (h2 : n < 2 ^ 31) :
    ∃ stem, stem <+: base ∧ hostname base n = stem ++ 0x2D :: decimal n ∧
      stem.length + 1 + (decimal n).length ≤ 254 ∧
      (base.length + 1 + (decimal n).length ≤ 254 → stem = base) ∧
      (254 < base.length + 1 + (decimal n).length → stem.length + 1 + (decimal n).length = 254) := by
  have hd := decimal_length n 10 (by omega) (by omega)
  have hs : snprintf (0x2D :: decimal n) 16 = 0x2D :: decimal n := by
    unfold snprintf
    exact List.take_of_length_le (by simp; omega)
  unfold hostname
  simp only [strlcpy, gt_iff_lt, if_pos h1, hs, List.length_cons, List.length_take, List.take_take]
  generalize hq : (if min (255 - 1) base.length + ((decimal n).length + 1 + 1) ≥ 255 then
    255 - ((decimal n).length + 1 + 1) else min (255 - 1) base.length) = q
  refine ⟨base.take (min q (255 - 1)), List.take_prefix _ _, ?_, ?_, ?_, ?_⟩
  · rw [List.take_of_length_le (l := 0x2D :: decimal n)]
    simp only [List.length_cons]
    split at hq <;> omega
  · simp only [List.length_take]; split at hq <;> omega
  · intro hb
    refine List.take_of_length_le ?_
    split at hq <;> omega
  · intro hb
    simp only [List.length_take]; split at hq <;> omega

/-- **C48.** With the number N > 1 the host name is the given name and `-N`; only
a name too long for the buffer is cut before the suffix. -/
theorem C48_suffix (base : Bytes) (n : Nat) (h1 : 1 < n) (h2 : n < 2 ^ 31) :
    ∃ stem, stem <+: base ∧ hostname base n = stem ++ 0x2D :: decimal n ∧
      (hostname base n).length < 255 ∧
      (base.length + 1 + (decimal n).length < 255 → stem = base) := by
  obtain ⟨stem, a, b, c, d, -⟩ := hostname_eq base n h1 h2
  exact ⟨stem, a, b, by rw [b]; simp; omega, fun h => d (by omega)⟩

/-- **C48.** Different numbers give different host names. -/
theorem C48_distinct (base : Bytes) (n m : Nat) (h1 : 1 < n) (h2 : n < 2 ^ 31)
    (h3 : 1 < m) (h4 : m < 2 ^ 31) (hne : n ≠ m) : hostname base n ≠ hostname base m := by
  obtain ⟨a, -, ha, -⟩ := hostname_eq base n h1 h2
  obtain ⟨b, -, hb, -⟩ := hostname_eq base m h3 h4
  rw [ha, hb]
  intro e
  exact hne (decimal_inj _ _ (last_run e (dash_digits n) (dash_digits m)).2)

/-- **C48.** A numbered name differs from the name without number, if that is
short enough for the suffix. -/
theorem C48_renamed_partial (base : Bytes) (n : Nat) (h1 : 1 < n) (h2 : n < 2 ^ 31)
    (hb : base.length + 1 + (decimal n).length < 255) : hostname base n ≠ hostname base 1 := by
  obtain ⟨stem, -, ha, -, hs⟩ := C48_suffix base n h1 h2
  rw [ha, hs hb]
  intro e
  have := congrArg List.length e
  simp [hostname, strlcpy] at this
  omega

/-- The claim fails for a name that fills the buffer: the name after the first
conflict is the same again. -/
theorem C48_full_counterexample : ∃ base : Bytes, base.length = 254 ∧ hostname base 2 = hostname base 1 :=
  ⟨List.replicate 252 0x61 ++ [0x2D, 0x32], by decide +kernel, by decide +kernel⟩

/-- **C48.** The published target names `<host name>.local.` differ, too, even if
they are cut at the end of their buffer. -/
theorem C48_targets_distinct (base : Bytes) (n m : Nat) (h1 : 1 < n) (h2 : n < 2 ^ 31)
    (h3 : 1 < m) (h4 : m < 2 ^ 31) (hne : n ≠ m) :
    target (hostname base n) ≠ target (hostname base m) := by
  suffices H : ∀ n m, 1 < n → n < 2 ^ 31 → 1 < m → m < 2 ^ 31 → n ≠ m →
      (hostname base n).length ≤ (hostname base m).length →
      target (hostname base n) ≠ target (hostname base m) by
    rcases Nat.le_total (hostname base n).length (hostname base m).length with h | h
    · exact H n m h1 h2 h3 h4 hne h
    · exact (H m n h3 h4 h1 h2 hne.symm h).symm
  intro n m h1 h2 h3 h4 hne hle e
  obtain ⟨a, -, ha, la, -⟩ := hostname_eq base n h1 h2
  obtain ⟨b, -, hb, lb, -⟩ := hostname_eq base m h3 h4
  have hd : ∃ i c, decimal m = i ++ [c] ∧ isDigit c = true := by
    have := decimal_ne m
    refine ⟨(decimal m).dropLast, (decimal m).getLast this, (List.dropLast_concat_getLast this).symm, ?_⟩
    exact decimal_isDigit m _ (List.getLast_mem this)
  obtain ⟨i, c, hi, hc⟩ := hd
  have hc2 := (isDigit_iff c).1 hc
  have ln : (hostname base n).length ≤ 254 := by rw [ha]; simp; omega
  have lm : (hostname base m).length ≤ 254 := by rw [hb]; simp; omega
  unfold target snprintf at e
  have dis := C48_distinct base n m h1 h2 h3 h4 hne
  have hbc : hostname base m = (b ++ 0x2D :: i) ++ [c] := by rw [hb, hi]; simp
  generalize hostname base n = x at *
  generalize hostname base m = y at *
  -- `x` is a prefix of `y`
  have hx : (y ++ dotLocal).take x.length = x := by
    have := congrArg (List.take x.length) e
    rw [List.take_take, List.take_take] at this
    rw [show min x.length (256 - 1) = x.length by omega] at this
    rw [← this]; simp
  rw [List.take_append_of_le_length hle] at hx
  have hlen := congrArg List.length e
  simp only [List.length_take, List.length_append, List.length_cons, List.length_nil] at hlen
  by_cases heq : x.length = y.length
  · exact dis (by rw [← hx, heq, List.take_length])
  · -- the last byte of `y`, a digit, is a byte of `.local.`
    have hj : y.length - 1 < (x ++ dotLocal).length := by
      simp only [List.length_append, List.length_cons, List.length_nil]; omega
    have p1 : (y ++ dotLocal)[y.length - 1]? = some c := by
      rw [List.getElem?_append_left (by omega), hbc]
      simp
    have p2 : (x ++ dotLocal)[y.length - 1]? = some c := by
      have h5 : ((x ++ dotLocal).take (256 - 1))[y.length - 1]? = ((y ++ dotLocal).take (256 - 1))[y.length - 1]? := by
        rw [e]
      rw [List.getElem?_take, List.getElem?_take, if_pos (by omega)] at h5
      rw [h5, p1, if_pos (by omega)]
    rw [List.getElem?_append_right (by omega)] at p2
    have : c ∈ dotLocal := List.mem_of_getElem? p2
    simp only [List.mem_cons, List.not_mem_nil, or_false] at this
    rcases this with h | h | h | h | h | h | h <;> subst h <;> simp at hc2

/-- **C48.** What conflicts do to the numbers: a conflict while no reload is
pending raises the number of its interface by one; nothing else changes a number. -/
theorem C48_numbers (s : Ids) (e : Event) (j : Nat) :
    (s.step e).hostid j =
      if e = .conflict j ∧ s.reload = false then s.hostid j + 1 else s.hostid j := by
  cases e with
  | conflict i =>
    unfold Ids.step
    cases hr : s.reload with
    | true => simp
    | false =>
      simp only
      by_cases hij : i = j
      · subst hij; simp
      · simp [upd_other _ _ _ _ (fun h => hij h.symm), hij]
  | hup => simp [Ids.step]
  | check => cases hr : s.reload <;> simp [Ids.step, hr]

/-- **C48.** So an interface never returns to an earlier number. -/
theorem C48_never_again (s : Ids) (es : List Event) (j : Nat) : s.hostid j ≤ (s.run es).hostid j := by
  induction es generalizing s with
  | nil => exact Nat.le_refl _
  | cons e es ih =>
    refine Nat.le_trans ?_ (ih (s.step e))
    rw [C48_numbers]
    split <;> omega

/-- Without a pending reload every interface is configured with its number. -/
theorem used_eq (es : List Event) : (Ids.run {} es).reload = false → (Ids.run {} es).used = (Ids.run {} es).hostid := by
  suffices H : ∀ s : Ids, (s.reload = false → s.used = s.hostid) →
      (s.run es).reload = false → (s.run es).used = (s.run es).hostid from H {} (fun _ => rfl)
  induction es with
  | nil => intro s h; exact h
  | cons e es ih =>
    intro s h
    refine ih (s.step e) ?_
    cases e with
    | conflict i => cases hr : s.reload <;> simp [Ids.step, hr]
    | hup => intro h; cases h
    | check =>
      cases hr : s.reload with
      | true => simp [Ids.step, hr]
      | false => simpa [Ids.step, hr] using h

/-- **C48 (partial).** After a conflict the interface is configured with a number
it never had before, when the main loop comes to its check the next time: larger
than at any time before the conflict.  The conflict is not one while a reload is
pending (`C48_pending_counterexample`). -/
theorem C48_configured_partial (es : List Event) (j : Nat) (hr : (Ids.run {} es).reload = false) :
    let s := Ids.run {} (es ++ [.conflict j, .check])
    s.used j = (Ids.run {} es).used j + 1 ∧ s.reload = false ∧
      ∀ es', es' <+: es → (Ids.run {} es').used j < s.used j := by
  have hu := used_eq es hr
  have e : Ids.run {} (es ++ [.conflict j, .check]) = ((Ids.run {} es).step (.conflict j)).step .check := by
    simp [Ids.run, List.foldl_append]
  have hle : ∀ (es : List Event) (s : Ids), (∀ j, s.used j ≤ s.hostid j) → ∀ j, (s.run es).used j ≤ (s.run es).hostid j := by
    intro es
    induction es with
    | nil => intro s h; exact h
    | cons e es ih =>
      intro s h
      refine ih (s.step e) fun j => ?_
      have h1 : s.hostid j ≤ (s.step e).hostid j := by rw [C48_numbers]; split <;> omega
      have h2 : (s.step e).used j ≤ s.hostid j ∨ (s.step e).used j = s.used j := by
        cases e with
        | conflict i => right; cases hr : s.reload <;> simp [Ids.step, hr]
        | hup => right; rfl
        | check =>
          cases hr : s.reload with
          | true => left; simp [Ids.step, hr]
          | false => right; simp [Ids.step, hr]
      have := h j
      omega
  have hs : ((Ids.run {} es).step (.conflict j)).step .check =
      { hostid := upd (Ids.run {} es).hostid j ((Ids.run {} es).hostid j + 1), reload := false,
        used := upd (Ids.run {} es).hostid j ((Ids.run {} es).hostid j + 1) } := by
    simp [Ids.step, hr]
  dsimp only
  rw [e, hs]
  refine ⟨by rw [hu]; simp, rfl, ?_⟩
  rintro es' ⟨t, rfl⟩
  have h1 := hle es' {} (fun _ => Nat.le_refl _) j
  have h2 := C48_never_again (Ids.run {} es') t j
  have e2 : (Ids.run {} es').run t = Ids.run {} (es' ++ t) := by simp [Ids.run, List.foldl_append]
  rw [e2] at h2
  simp
  omega

/-- Two conflicts on one interface, each followed by a reload. -/
example : ((Ids.run {} [.conflict 0, .conflict 0, .check, .conflict 0, .check]).used 0) = 3 := rfl

/-- The claim fails for a conflict on a second interface before the reload: its
name stays. -/
theorem C48_pending_counterexample :
    (Ids.run {} [.conflict 0, .conflict 1, .check]).used 1 = (Ids.run {} []).used 1 := rfl

/-- `host` becomes `host-2`, `host-10`. -/
example : hostname [0x68, 0x6F, 0x73, 0x74] 2 = [0x68, 0x6F, 0x73, 0x74, 0x2D, 0x32] ∧
    hostname [0x68, 0x6F, 0x73, 0x74] 10 = [0x68, 0x6F, 0x73, 0x74, 0x2D, 0x31, 0x30] := by decide +kernel

end Mdns.Conf
