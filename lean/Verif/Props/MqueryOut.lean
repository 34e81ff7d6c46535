import Verif.Model.MqueryOut
import Verif.Props.Mquery

/-!
# C73, C74: what `mquery` prints
-/

namespace Mdns.Mquery

open Mdns.CLib

/-! ### Specification -/

/-- The lines of a text, each ended by a newline; what is after the last newline is not a line. -/
def linesGo : Bytes → Bytes → List Bytes
  | _, [] => []
  | acc, c :: rest => if c = 0x0A then acc :: linesGo [] rest else linesGo (acc ++ [c]) rest

def lines (b : Bytes) : List Bytes := linesGo [] b

/-- The columns `i` to `j` of the line have this text and then blanks, at least one. -/
def Field (l : Bytes) (i j : Nat) (s : Bytes) : Prop :=
  ∃ k, 1 ≤ k ∧ i + s.length + k = j ∧ (l.drop i).take (j - i) = s ++ List.replicate k 0x20

/-- The text after column `i`. -/
def Rest (l : Bytes) (i : Nat) (s : Bytes) : Prop := i ≤ l.length ∧ l.drop i = s

/-- A host name without the dot at its end. -/
def Undotted (n s : Bytes) : Prop := n = s ++ [0x2E] ∨ (n = s ∧ n.getLast? ≠ some 0x2E)

/-- The text is a product some service on the host has, or empty if none has one. -/
def IsProduct (t : Tables) (host s : Bytes) : Prop :=
  (s ≠ [] ∧ ∃ i ∈ t.instances, i.hostname = host ∧ i.product = s) ∨
  (s = [] ∧ ∀ i ∈ t.instances, i.hostname = host → i.product = [])

/-- The lines about a device, in a table with columns at 0, `a` and `p`: the name, the first address and the product; and a
line for each further address. -/
structure Row (a p : Nat) (t : Tables) (dev : Dev) (ls : List Bytes) : Prop where
  count : ls.length = max 1 dev.addrs.length
  first : ∀ l, ls[0]? = some l → (∃ s, Undotted dev.hostname s ∧ Field l 0 a s) ∧ Field l a p (dev.addrs.head?.getD []) ∧
    ∃ s, IsProduct t dev.hostname s ∧ Rest l p s
  more : ∀ i l, ls[i + 1]? = some l → ∃ x, dev.addrs[i + 1]? = some x ∧ Field l 0 a [] ∧ Rest l a x

/-- The title of the table. -/
structure Title (a p : Nat) (l : Bytes) : Prop where
  on : l.take 4 = inverse
  name : Field (l.drop 4) 0 a txtName
  addr : Field (l.drop 4) a p txtAddress
  prod : ∃ k, Rest (l.drop 4) p (txtProduct ++ List.replicate k 0x20 ++ normal)

/-- Texts that can be in the tables: no newlines, and as long as the arrays allow. -/
structure Clean (t : Tables) : Prop where
  host : ∀ d ∈ t.devices, 0x0A ∉ d.hostname ∧ d.hostname.length ≤ 255
  addr : ∀ d ∈ t.devices, ∀ a ∈ d.addrs, 0x0A ∉ a
  inst : ∀ i ∈ t.instances, 0x0A ∉ i.iname ∧ 0x0A ∉ i.product ∧ 0x0A ∉ i.version ∧ i.product.length ≤ 63 ∧ i.iname.length ≤ 255

/-- The device has this name: in full, without the dot at the end, or its first part alone. -/
def Named (host : Bytes) (d : Dev) : Prop :=
  d.hostname = host ∨ d.hostname = host ++ [0x2E] ∨ (0x2E ∉ host ∧ ∃ rest, d.hostname = host ++ 0x2E :: rest)

/-- The type of service in the name of an instance, such as `_http._tcp`, if the first part of the name has no dot. -/
def TypeOf (iname ty : Bytes) : Prop := ∀ label a b rest, 0x2E ∉ label → 0x2E ∉ a → 0x2E ∉ b →
  iname = label ++ 0x2E :: (a ++ 0x2E :: (b ++ 0x2E :: rest)) → ty = a ++ 0x2E :: b

/-- The line of a service: its type, port, and product and version if known. -/
def ServiceLine (i : Inst) (l : Bytes) : Prop := ∃ ty j k x y, TypeOf i.iname ty ∧
  l = [0x20, 0x20] ++ ty ++ List.replicate j 0x20 ++ txtPort ++ decimal i.port ++ List.replicate k 0x20 ++ x ++ y ∧
  ((i.product = [] ∧ x = []) ∨ (i.product ≠ [] ∧ x = txtProductIs ++ i.product)) ∧
  ((i.version = [] ∧ y = []) ∨ (i.version ≠ [] ∧ y = txtVersionIs ++ i.version))

/-- The lines about a device in detail: its name, all addresses, and all services on this host. -/
structure Detail (t : Tables) (dev : Dev) (ls : List Bytes) : Prop where
  lines : ∃ s ss, Undotted dev.hostname s ∧ ls = (txtDevice ++ s) :: (dev.addrs.map fun a => txtAddr ++ a) ++ txtServices :: ss ∧
    ss.length = (t.instances.filter fun i => i.hostname == dev.hostname).length ∧
    ∀ (k : Nat) l, ss[k]? = some l → ∃ i, (t.instances.filter fun i => i.hostname == dev.hostname)[k]? = some i ∧ ServiceLine i l

/-! ### Lines -/

theorem linesGo_line : ∀ (l acc rest : Bytes), 0x0A ∉ l → linesGo acc (l ++ 0x0A :: rest) = (acc ++ l) :: linesGo [] rest
  | [], acc, rest, _ => by simp [linesGo]
  | c :: l, acc, rest, h => by
    have h1 : c ≠ 0x0A := fun e => h (by simp [e])
    rw [List.cons_append, linesGo, if_neg h1, linesGo_line l _ _ (fun m => h (List.mem_cons_of_mem _ m))]
    simp

theorem lines_line {l rest : Bytes} (h : 0x0A ∉ l) : lines (l ++ 0x0A :: rest) = l :: lines rest := by
  unfold lines
  rw [linesGo_line l [] rest h]
  rfl

/-- A text made of whole lines. -/
def unlines (ls : List Bytes) : Bytes := ls.flatMap fun l => l ++ [0x0A]

theorem lines_unlines (ls : List Bytes) (h : ∀ l ∈ ls, 0x0A ∉ l) : lines (unlines ls) = ls := by
  induction ls with
  | nil => rfl
  | cons l ls ih =>
    have : unlines (l :: ls) = l ++ 0x0A :: unlines ls := by simp [unlines]
    rw [this, lines_line (h l (by simp)), ih fun l m => h l (by simp [m])]

theorem unlines_append (a b : List Bytes) : unlines (a ++ b) = unlines a ++ unlines b := by simp [unlines]

theorem unlines_flatMap {α : Type} (l : List α) (f : α → List Bytes) : unlines (l.flatMap f) = l.flatMap fun x => unlines (f x) := by
  induction l with
  | nil => rfl
  | cons x l ih => rw [List.flatMap_cons, List.flatMap_cons, unlines_append, ih]

/-! ### Fields -/

theorem pad_length {w : Nat} {s : Bytes} (h : s.length ≤ w) : (pad w s).length = w := by
  simp [pad]
  omega

theorem mem_pad {w : Nat} {s : Bytes} {c : UInt8} (h : c ∈ pad w s) : c ∈ s ∨ c = 0x20 := by
  unfold pad at h
  rcases List.mem_append.mp h with h | h
  · exact .inl h
  · exact .inr (List.eq_of_mem_replicate h)

theorem field_pad {w : Nat} {s l0 l1 l : Bytes} {i : Nat} (hs : s.length ≤ w) (hl : l = l0 ++ (pad w s ++ [0x20] ++ l1)) (hi : l0.length = i) :
    Field l i (i + (w + 1)) s := by
  subst hl hi
  refine ⟨w - s.length + 1, by omega, by omega, ?_⟩
  rw [List.drop_left]
  have : l0.length + (w + 1) - l0.length = (pad w s ++ [0x20]).length := by
    rw [List.length_append, pad_length hs]
    simp
  rw [this, List.take_left, pad, List.append_assoc, ← List.replicate_succ']

theorem rest_of {l0 l1 l : Bytes} {i : Nat} (hl : l = l0 ++ l1) (hi : l0.length = i) : Rest l i l1 := by
  subst hl hi
  exact ⟨by simp, List.drop_left⟩

theorem undotted_shortname {n : Bytes} (h : n.length ≤ 255) : Undotted n (shortname n) := by
  have e : strlcpy n 256 = n := List.take_of_length_le (by simpa using h)
  unfold shortname
  simp only [e]
  split
  · rename_i h1
    obtain ⟨s, rfl⟩ := List.getLast?_eq_some_iff.mp h1
    left
    simp
  · rename_i h1
    exact .inr ⟨rfl, h1⟩

theorem shortname_mem {n : Bytes} {c : UInt8} (h : c ∈ shortname n) : c ∈ n := by
  unfold shortname at h
  simp only at h
  split at h
  · exact List.mem_of_mem_take ((List.dropLast_sublist _).mem h)
  · exact List.mem_of_mem_take h

/-! ### Widths -/

theorem widen_le (w n : Nat) : w ≤ widen w n ∧ n ≤ widen w n := by
  unfold widen
  split <;> omega

theorem foldl_widen (l : List Bytes) (w : Nat) :
    w ≤ l.foldl (fun w a => widen w a.length) w ∧ ∀ a ∈ l, a.length ≤ l.foldl (fun w a => widen w a.length) w := by
  induction l generalizing w with
  | nil => simp
  | cons x l ih =>
    obtain ⟨h1, h2⟩ := ih (widen w x.length)
    have := widen_le w x.length
    refine ⟨by rw [List.foldl_cons]; omega, fun a m => ?_⟩
    rw [List.foldl_cons]
    rcases List.mem_cons.mp m with rfl | m
    · omega
    · exact h2 a m

theorem foldl_measure (detail : Option Bytes) (t : Tables) (l : List Dev) (w : Widths) :
    (w.name ≤ (l.foldl (measure detail t) w).name ∧ w.addr ≤ (l.foldl (measure detail t) w).addr) ∧
    ∀ d ∈ l, matchesDetail detail d = true → (shortname d.hostname).length ≤ (l.foldl (measure detail t) w).name ∧
      ∀ a ∈ d.addrs, a.length ≤ (l.foldl (measure detail t) w).addr := by
  induction l generalizing w with
  | nil => simp
  | cons d l ih =>
    obtain ⟨⟨h1, h2⟩, h3⟩ := ih (measure detail t w d)
    rw [List.foldl_cons]
    have hm : w.name ≤ (measure detail t w d).name ∧ w.addr ≤ (measure detail t w d).addr ∧ (matchesDetail detail d = true →
        (shortname d.hostname).length ≤ (measure detail t w d).name ∧ ∀ a ∈ d.addrs, a.length ≤ (measure detail t w d).addr) := by
      unfold measure
      cases hd : matchesDetail detail d
      · simp
      · simp only [Bool.not_true, Bool.false_eq_true, if_false, forall_const]
        have h4 := widen_le w.name (shortname d.hostname).length
        have h5 := foldl_widen d.addrs w.addr
        exact ⟨h4.1, h5.1, h4.2, h5.2⟩
    refine ⟨⟨by omega, by omega⟩, fun d' m hd' => ?_⟩
    rcases List.mem_cons.mp m with rfl | m
    · obtain ⟨h4, h5⟩ := hm.2.2 hd'
      exact ⟨by omega, fun a m => Nat.le_trans (h5 a m) h2⟩
    · exact h3 d' m hd'

/-! ### The table -/

theorem isProduct_of (t : Tables) (hc : Clean t) (dev : Dev) : IsProduct t dev.hostname (productOf t dev) ∧ 0x0A ∉ productOf t dev := by
  unfold productOf
  cases h : t.instances.find? fun i => i.hostname == dev.hostname && !i.product.isEmpty with
  | none =>
    refine ⟨.inr ⟨rfl, fun i m e => ?_⟩, by simp⟩
    have := List.find?_eq_none.mp h i m
    simpa [e] using this
  | some i =>
    have m := List.mem_of_find?_eq_some h
    have := List.find?_some h
    simp only [Bool.and_eq_true, beq_iff_eq, Bool.not_eq_true', List.isEmpty_eq_false_iff] at this
    obtain ⟨_, h1, _, h2, _⟩ := hc.inst i m
    have e : strlcpy i.product 64 = i.product := List.take_of_length_le (by simpa using h2)
    simp only [e]
    exact ⟨.inl ⟨this.2, i, m, this.1, rfl⟩, h1⟩

/-- The lines of a device. -/
def rowLines (w : Widths) (t : Tables) (dev : Dev) : List Bytes :=
  (pad w.name (shortname dev.hostname) ++ [0x20] ++ (pad w.addr (dev.addrs.head?.getD []) ++ [0x20] ++ productOf t dev)) ::
    (dev.addrs.drop 1).map fun a => pad w.name [] ++ [0x20] ++ a

theorem row_eq (w : Widths) (t : Tables) (dev : Dev) : row w t dev = unlines (rowLines w t dev) := by
  simp only [row, unlines, rowLines, List.flatMap_cons, List.flatMap_map, List.append_assoc]

theorem rowLines_row {w : Widths} {t : Tables} (hc : Clean t) {dev : Dev} (hd : dev ∈ t.devices)
    (hn : (shortname dev.hostname).length ≤ w.name) (ha : ∀ a ∈ dev.addrs, a.length ≤ w.addr) :
    Row (w.name + 1) (w.name + 1 + (w.addr + 1)) t dev (rowLines w t dev) ∧ ∀ l ∈ rowLines w t dev, 0x0A ∉ l := by
  have hp := isProduct_of t hc dev
  have h0 : (dev.addrs.head?.getD []).length ≤ w.addr ∧ 0x0A ∉ dev.addrs.head?.getD [] := by
    cases e : dev.addrs with
    | nil => simp
    | cons a as => exact ⟨ha a (by simp [e]), hc.addr dev hd a (by simp [e])⟩
  refine ⟨⟨?_, ?_, ?_⟩, ?_⟩
  · simp [rowLines]
    omega
  · intro l hl
    simp only [rowLines, List.getElem?_cons_zero, Option.some.injEq] at hl
    refine ⟨⟨_, undotted_shortname (hc.host dev hd).2, ?_⟩, ?_, _, hp.1, ?_⟩
    · have := field_pad (l0 := []) (i := 0) hn hl.symm rfl
      rwa [Nat.zero_add] at this
    · exact field_pad h0.1 hl.symm (by simp [pad_length hn])
    · refine rest_of (l0 := pad w.name (shortname dev.hostname) ++ [0x20] ++ (pad w.addr (dev.addrs.head?.getD []) ++ [0x20])) ?_ ?_
      · rw [← hl]
        simp
      · simp [pad_length hn, pad_length h0.1]
        omega
  · intro i l hl
    simp only [rowLines, List.getElem?_cons_succ, List.getElem?_map, Option.map_eq_some_iff, List.getElem?_drop] at hl
    obtain ⟨x, hx, hl⟩ := hl
    refine ⟨x, by rw [← hx, Nat.add_comm], ?_, ?_⟩
    · have := field_pad (l0 := []) (i := 0) (s := []) (w := w.name) (by simp) hl.symm rfl
      rwa [Nat.zero_add] at this
    · exact rest_of hl.symm (by simp [pad_length])
  · intro l hl hc'
    simp only [rowLines, List.mem_cons, List.mem_map] at hl
    rcases hl with rfl | ⟨a, m, rfl⟩
    · simp only [List.mem_append, List.mem_singleton] at hc'
      rcases hc' with (hc' | hc') | (hc' | hc') | hc'
      · rcases mem_pad hc' with h | h
        · exact (hc.host dev hd).1 (shortname_mem h)
        · cases h
      · cases hc'
      · rcases mem_pad hc' with h | h
        · exact h0.2 h
        · cases h
      · cases hc'
      · exact hp.2 hc'
    · simp only [List.mem_append, List.mem_singleton] at hc'
      rcases hc' with (hc' | hc') | hc'
      · rcases mem_pad hc' with h | h <;> cases h
      · cases hc'
      · exact hc.addr dev hd a (List.mem_of_mem_drop m) hc'

/-- C73, the table of `mquery -D`: whatever devices were found, the output is a title and, for each device that is
asked for, in the order of the list, its name, addresses and product in columns which all lines share. -/
theorem C73_table_partial (detail : Option Bytes) (t : Tables) (hc : Clean t) :
    ∃ a p title, Title a p title ∧ ∃ ls : Dev → List Bytes,
      lines (printDevices detail t) = title :: (t.devices.filter (matchesDetail detail)).flatMap ls ∧
      ∀ d ∈ t.devices, matchesDetail detail d = true → Row a p t d (ls d) := by
  obtain ⟨⟨h1, h2⟩, h3⟩ := foldl_measure detail t t.devices {}
  let w := widths detail t
  have e1 : w.name = (t.devices.foldl (measure detail t) {}).name + 2 := rfl
  have e2 : w.addr = (t.devices.foldl (measure detail t) {}).addr + 2 := rfl
  have h1 : 4 ≤ (t.devices.foldl (measure detail t) {}).name := h1
  have h2 : 7 ≤ (t.devices.foldl (measure detail t) {}).addr := h2
  have hrow : ∀ d ∈ t.devices, matchesDetail detail d = true →
      Row (w.name + 1) (w.name + 1 + (w.addr + 1)) t d (rowLines w t d) ∧ ∀ l ∈ rowLines w t d, 0x0A ∉ l := fun d m hd =>
    rowLines_row hc m (by have := (h3 d m hd).1; omega) fun a ma => by have := (h3 d m hd).2 a ma; omega
  let title := inverse ++ (pad w.name txtName ++ [0x20] ++ (pad w.addr txtAddress ++ [0x20] ++ (pad w.prod txtProduct ++ normal)))
  have ht : title.drop 4 = pad w.name txtName ++ [0x20] ++ (pad w.addr txtAddress ++ [0x20] ++ (pad w.prod txtProduct ++ normal)) := rfl
  have hn : txtName.length ≤ w.name := by simp; omega
  have ha : txtAddress.length ≤ w.addr := by simp; omega
  refine ⟨w.name + 1, w.name + 1 + (w.addr + 1), title, ⟨rfl, ?_, ?_, w.prod - txtProduct.length, ?_⟩, rowLines w t, ?_, fun d m hd => (hrow d m hd).1⟩
  · have := field_pad (l0 := []) (i := 0) hn ht rfl
    rwa [Nat.zero_add] at this
  · exact field_pad ha ht (by rw [List.length_append, pad_length hn]; rfl)
  · refine rest_of (l0 := pad w.name txtName ++ [0x20] ++ (pad w.addr txtAddress ++ [0x20])) ?_ ?_
    · rw [ht, pad, pad, pad]
      simp only [List.append_assoc]
    · simp only [List.length_append, pad_length hn, pad_length ha, List.length_singleton]
  · have e : printDevices detail t = unlines (title :: (t.devices.filter (matchesDetail detail)).flatMap (rowLines w t)) := by
      have : unlines (title :: (t.devices.filter (matchesDetail detail)).flatMap (rowLines w t)) = title ++ [0x0A] ++
          (t.devices.filter (matchesDetail detail)).flatMap fun d => row w t d := by
        simp only [row_eq, ← unlines_flatMap]
        simp [unlines]
      rw [this, printDevices]
      have hf : ∀ l : List Dev, (l.flatMap fun dev => if !matchesDetail detail dev then [] else row w t dev) =
          (l.filter (matchesDetail detail)).flatMap fun d => row w t d := by
        intro l
        induction l with
        | nil => rfl
        | cons d l ih =>
          rw [List.flatMap_cons, ih, List.filter_cons]
          cases matchesDetail detail d <;> simp
      rw [hf]
      simp only [title, List.append_assoc]
      rfl
    rw [e]
    refine lines_unlines _ fun l m => ?_
    rcases List.mem_cons.mp m with rfl | m
    · intro hm
      simp only [title, List.mem_append, List.mem_singleton] at hm
      rcases hm with hm | (hm | hm) | (hm | hm) | hm | hm
      · revert hm; decide
      · rcases mem_pad hm with h | h <;> revert h <;> decide
      · cases hm
      · rcases mem_pad hm with h | h <;> revert h <;> decide
      · cases hm
      · rcases mem_pad hm with h | h <;> revert h <;> decide
      · revert hm; decide
    · obtain ⟨d, md, ml⟩ := List.mem_flatMap.mp m
      obtain ⟨md, hd⟩ := List.mem_filter.mp md
      exact (hrow d md hd).2 l ml

/-- C73: every host an address was told of is in the table once, with the first eight addresses told. -/
theorem C73_found_partial (np : Ntop) (as : List (Answer × Bool)) (hs : ∀ a ∈ as, Short a) (hc : Clean (run np as {})) :
    ∃ a p title, ∃ devs : List Dev, Title a p title ∧ ∃ ls : Dev → List Bytes,
      lines (printDevices none (run np as {})) = title :: devs.flatMap ls ∧ (devs.map (·.hostname)).Nodup ∧
      ∀ n, told np n as ≠ [] → ∃ d ∈ devs, d.hostname = n ∧ d.addrs = (firsts (told np n as)).take 8 ∧
        Row a p (run np as {}) d (ls d) := by
  obtain ⟨a, p, title, ht, ls, h1, h2⟩ := C73_table_partial none _ hc
  have e : (run np as {}).devices.filter (matchesDetail none) = (run np as {}).devices :=
    List.filter_eq_self.mpr fun _ _ => rfl
  rw [e] at h1
  obtain ⟨g1, g2⟩ := C54_devices_partial np as hs
  refine ⟨a, p, title, _, ht, ls, h1, g1, fun n hn => ?_⟩
  have hm := (g2 ⟨n, (firsts (told np n as)).take 8⟩).mpr ⟨hn, rfl⟩
  exact ⟨_, hm, rfl, rfl, h2 _ hm rfl⟩

/-! ### In detail -/

theorem takeWhile_dot {a rest : Bytes} (h : 0x2E ∉ a) : (a ++ 0x2E :: rest).takeWhile (· != 0x2E) = a ∧
    (a ++ 0x2E :: rest).dropWhile (· != 0x2E) = 0x2E :: rest := by
  have h1 : ∀ c ∈ a, (c != 0x2E) = true := fun c m => by
    simp only [bne_iff_ne]
    rintro rfl
    exact h m
  rw [List.takeWhile_append_of_pos h1, List.dropWhile_append_of_pos h1]
  simp

theorem svcText_type {n : Bytes} (hl : n.length ≤ 255) : TypeOf n (svcText n) := by
  rintro label a b rest h1 h2 h3 rfl
  unfold svcText
  rw [(takeWhile_dot h1).2]
  have e : strlcpy (a ++ 0x2E :: (b ++ 0x2E :: rest)) 256 = a ++ 0x2E :: (b ++ 0x2E :: rest) := List.take_of_length_le (by
    simp at hl ⊢
    omega)
  simp only [e]
  rw [(takeWhile_dot h2).2]
  simp only [(takeWhile_dot h2).1, (takeWhile_dot h3).1]
  simp

theorem svcText_mem {n : Bytes} {c : UInt8} (h : c ∈ svcText n) : c ∈ n ∨ c = 0x2E := by
  unfold svcText at h
  simp only at h
  have hm : ∀ c, c ∈ strlcpy (match n.dropWhile (· != 0x2E) with | [] => n | _ :: rest => rest) 256 → c ∈ n := by
    intro c h
    have h := List.mem_of_mem_take h
    split at h
    · exact h
    · rename_i e
      exact (List.dropWhile_sublist _).mem (e ▸ List.mem_cons_of_mem _ h)
  generalize strlcpy (match n.dropWhile (· != 0x2E) with | [] => n | _ :: rest => rest) 256 = svc at h hm
  split at h
  · exact .inl (hm _ h)
  · rename_i e
    simp only [List.mem_append, List.mem_singleton] at h
    rcases h with (h | h) | h
    · exact .inl (hm _ ((List.takeWhile_sublist _).mem h))
    · exact .inr h
    · exact .inl (hm _ ((List.dropWhile_sublist _).mem (e ▸ List.mem_cons_of_mem _ ((List.takeWhile_sublist _).mem h))))

theorem decimal_digit (n : Nat) : ∀ c ∈ decimal n, 0x30 ≤ c ∧ c ≤ 0x39 := by
  induction n using Nat.strongRecOn with
  | ind n ih =>
    rw [decimal]
    have dig : ∀ k, k < 10 → 0x30 ≤ UInt8.ofNat (0x30 + k) ∧ UInt8.ofNat (0x30 + k) ≤ 0x39 := by decide
    split
    · intro c m
      cases List.mem_singleton.mp m
      exact dig n ‹_›
    · intro c m
      rcases List.mem_append.mp m with m | m
      · exact ih (n / 10) (by omega) c m
      · cases List.mem_singleton.mp m
        exact dig _ (Nat.mod_lt _ (by omega))

/-- The line of a service, without the newline. -/
def serviceLine (i : Inst) : Bytes :=
  [0x20, 0x20] ++ pad 24 (svcText i.iname) ++ txtPort ++ pad 6 (decimal i.port) ++
    (if i.product.isEmpty then [] else txtProductIs ++ i.product) ++
    (if i.version.isEmpty then [] else txtVersionIs ++ i.version)

theorem serviceLine_ok {t : Tables} (hc : Clean t) {i : Inst} (hi : i ∈ t.instances) :
    ServiceLine i (serviceLine i) ∧ 0x0A ∉ serviceLine i := by
  obtain ⟨h1, h2, h3, _, h5⟩ := hc.inst i hi
  constructor
  · refine ⟨svcText i.iname, 24 - (svcText i.iname).length, 6 - (decimal i.port).length,
      if i.product.isEmpty then [] else txtProductIs ++ i.product, if i.version.isEmpty then [] else txtVersionIs ++ i.version,
      svcText_type h5, ?_, ?_, ?_⟩
    · simp only [serviceLine, pad, List.append_assoc]
    · cases i.product <;> simp
    · cases i.version <;> simp
  · intro hm
    simp only [serviceLine, List.mem_append] at hm
    rcases hm with ((((hm | hm) | hm) | hm) | hm) | hm
    · revert hm; decide
    · rcases mem_pad hm with h | h
      · rcases svcText_mem h with h | h
        · exact h1 h
        · cases h
      · cases h
    · revert hm; decide
    · rcases mem_pad hm with h | h
      · have := (decimal_digit _ _ h).1
        revert this
        decide
      · cases h
    · split at hm
      · cases hm
      · rcases List.mem_append.mp hm with hm | hm
        · revert hm; decide
        · exact h2 hm
    · split at hm
      · cases hm
      · rcases List.mem_append.mp hm with hm | hm
        · revert hm; decide
        · exact h3 hm

/-- The lines of a device in detail. -/
def detailLines (t : Tables) (dev : Dev) : List Bytes :=
  (txtDevice ++ shortname dev.hostname) :: (dev.addrs.map fun a => txtAddr ++ a) ++
    txtServices :: (t.instances.filter fun i => i.hostname == dev.hostname).map serviceLine

theorem detailOf_eq (t : Tables) (dev : Dev) : detailOf t dev = unlines (detailLines t dev) := by
  have hf : ∀ l : List Inst, (l.flatMap fun i => if i.hostname != dev.hostname then [] else service i) =
      unlines ((l.filter fun i => i.hostname == dev.hostname).map serviceLine) := by
    intro l
    induction l with
    | nil => rfl
    | cons i l ih =>
      rw [List.flatMap_cons, ih, List.filter_cons]
      by_cases h : i.hostname = dev.hostname
      · simp [h, unlines, service, serviceLine]
      · simp [h, unlines]
  unfold detailOf
  rw [hf]
  simp [unlines, detailLines, List.flatMap_map]

theorem detailLines_ok {t : Tables} (hc : Clean t) {dev : Dev} (hd : dev ∈ t.devices) :
    Detail t dev (detailLines t dev) ∧ ∀ l ∈ detailLines t dev, 0x0A ∉ l := by
  refine ⟨⟨_, _, undotted_shortname (hc.host dev hd).2, rfl, by simp, fun k l hl => ?_⟩, fun l hl hm => ?_⟩
  · rw [List.getElem?_map, Option.map_eq_some_iff] at hl
    obtain ⟨i, hi, rfl⟩ := hl
    exact ⟨i, hi, (serviceLine_ok hc (List.mem_filter.mp (List.mem_of_getElem? hi)).1).1⟩
  · simp only [detailLines, List.cons_append, List.mem_cons, List.mem_append, List.mem_map] at hl
    rcases hl with rfl | ⟨a, ma, rfl⟩ | rfl | ⟨i, mi, rfl⟩
    · rcases List.mem_append.mp (show _ ∈ txtDevice ++ _ from hm) with hm | hm
      · revert hm; decide
      · exact (hc.host dev hd).1 (shortname_mem hm)
    · rcases List.mem_append.mp (show _ ∈ txtAddr ++ _ from hm) with hm | hm
      · revert hm; decide
      · exact hc.addr dev hd a ma hm
    · revert hm; decide
    · exact (serviceLine_ok hc (List.mem_filter.mp mi).1).2 hm

theorem printDetails_eq (detail : Option Bytes) (t : Tables) : ∀ (l : List Dev) (first : Bool),
    printDetails detail t first l = unlines ((if first || (l.filter (matchesDetail detail)).isEmpty then [] else [[]]) ++
      List.intercalate [[]] ((l.filter (matchesDetail detail)).map (detailLines t)))
  | [], first => by simp [printDetails, unlines]
  | d :: l, first => by
    rw [printDetails, List.filter_cons]
    have ih := printDetails_eq detail t l
    cases h : matchesDetail detail d
    · simp only [Bool.not_false, if_true, Bool.false_eq_true, if_false]
      exact ih first
    · simp only [Bool.not_true, Bool.false_eq_true, if_false, if_true, ih false, detailOf_eq]
      cases hl : l.filter (matchesDetail detail) with
      | nil => cases first <;> simp [unlines]
      | cons x xs => cases first <;> simp [unlines, List.intercalate]

/-- C73, the details of `mquery -d HOST`: for each device that is asked for its name, all its addresses and all services on
it with type and port, and product and version if known; an empty line between devices. -/
theorem C73_detail_partial (detail : Option Bytes) (t : Tables) (hc : Clean t) : ∃ ls : Dev → List Bytes,
    lines (printDeviceDetail detail t) = List.intercalate [[]] ((t.devices.filter (matchesDetail detail)).map ls) ∧
    ∀ d ∈ t.devices, matchesDetail detail d = true → Detail t d (ls d) := by
  refine ⟨detailLines t, ?_, fun d m _ => (detailLines_ok hc m).1⟩
  unfold printDeviceDetail
  rw [printDetails_eq]
  refine lines_unlines _ fun l hl => ?_
  simp only [Bool.true_or, if_true, List.nil_append] at hl
  have : ∀ bs : List (List Bytes), (∀ b ∈ bs, ∀ l ∈ b, 0x0A ∉ l) → ∀ l ∈ List.intercalate [[]] bs, 0x0A ∉ l := by
    intro bs
    induction bs with
    | nil => intro _ l hl; cases hl
    | cons b bs ih =>
      intro h l hl
      cases bs with
      | nil =>
        simp [List.intercalate] at hl
        exact h b (by simp) l hl
      | cons b' bs =>
        have e : List.intercalate [[]] (b :: b' :: bs) = b ++ [] :: List.intercalate [[]] (b' :: bs) := by
          simp [List.intercalate]
        rw [e, List.mem_append, List.mem_cons] at hl
        rcases hl with hl | rfl | hl
        · exact h b (by simp) l hl
        · simp
        · exact ih (fun b m => h b (by simp [m])) l hl
  refine this _ (fun b m => ?_) l hl
  obtain ⟨d, md, rfl⟩ := List.mem_map.mp m
  exact (detailLines_ok hc (List.mem_filter.mp md).1).2

/-! ### C74 -/

theorem shortname_dotted {s : Bytes} (h : (s ++ [0x2E]).length ≤ 255) : shortname (s ++ [0x2E]) = s := by
  have e : strlcpy (s ++ [0x2E]) 256 = s ++ [0x2E] := List.take_of_length_le (by simpa using h)
  unfold shortname
  simp [e]

/-- C74: the devices asked for are those that have the name. -/
theorem C74_selected_partial (host : Bytes) (d : Dev) (hl : d.hostname.length ≤ 255) :
    matchesDetail (some host) d = true ↔ Named host d := by
  have hu := undotted_shortname hl
  have hle : (shortname d.hostname).length ≤ 255 := by
    rcases hu with h | h
    · have := congrArg List.length h
      simp at this
      omega
    · rw [← h.1]; exact hl
  have e : strlcpy (shortname d.hostname) 256 = shortname d.hostname := List.take_of_length_le (by simpa using hle)
  have hdot : ∀ s, d.hostname = s ++ [0x2E] → shortname d.hostname = s := fun s h => by
    rw [h]
    exact shortname_dotted (h ▸ hl)
  simp only [matchesDetail, e, Bool.or_eq_true, beq_iff_eq]
  generalize shortname d.hostname = f at hu hdot ⊢
  constructor
  · rintro ((rfl | rfl) | rfl)
    · rcases hu with h | h
      · exact .inr (.inl h)
      · exact .inl h.1
    · exact .inl rfl
    · have hn : 0x2E ∉ f.takeWhile (· != 0x2E) := fun m => by
        have := List.all_eq_true.mp List.all_takeWhile _ m
        simp at this
      have hsplit := (List.takeWhile_append_dropWhile (p := (· != 0x2E)) (l := f)).symm
      clear hdot e hle
      cases hd : f.dropWhile (· != 0x2E) with
      | nil =>
        rw [hd, List.append_nil] at hsplit
        rw [← hsplit]
        rcases hu with h | h
        · exact .inr (.inl h)
        · exact .inl h.1
      | cons c rest =>
        have hc : c = 0x2E := by
          have := List.head_dropWhile_not (p := (· != 0x2E)) (l := f) (by simp [hd])
          simpa [hd] using this
        subst hc
        rw [hd] at hsplit
        right; right
        refine ⟨hn, ?_⟩
        rcases hu with h | h
        · exact ⟨rest ++ [0x2E], by rw [h]; conv => lhs; rw [hsplit]
                                    simp⟩
        · exact ⟨rest, by rw [h.1]; exact hsplit⟩
  · rintro (rfl | h | ⟨hn, rest, h⟩)
    · exact .inl (.inr rfl)
    · left; left
      exact (hdot _ h).symm
    · right
      rcases hu with h1 | h1
      · rcases List.eq_nil_or_concat rest with rfl | ⟨r, x, rfl⟩
        · have : f = host := List.append_cancel_right (h1.symm.trans h)
          subst this
          have := List.takeWhile_append_of_pos (l₂ := []) (p := (· != 0x2E)) (l₁ := f) fun c m => by
            simp only [bne_iff_ne]
            rintro rfl
            exact hn m
          simpa using this.symm
        · have e2 : f ++ [0x2E] = (host ++ 0x2E :: r) ++ [x] := by rw [← h1, h]; simp
          have : f = host ++ 0x2E :: r := (List.append_inj' e2 rfl).1
          rw [this, (takeWhile_dot hn).1]
      · rw [← h1.1, h, (takeWhile_dot hn).1]

theorem withDev_short {l : List Dev} (h : ∀ d ∈ l, d.hostname.length ≤ 255) (n : Bytes) (a : Bytes) :
    ∀ d ∈ withDev l n (addAddr a), d.hostname.length ≤ 255 := by
  have hf : ∀ d : Dev, (addAddr a d).hostname = d.hostname := fun d => by
    unfold addAddr
    split
    · rfl
    · split <;> rfl
  unfold withDev
  split
  · intro d m
    obtain ⟨k, hk⟩ := List.mem_iff_getElem?.mp m
    rw [List.getElem?_modify] at hk
    obtain ⟨x, hx, rfl⟩ := Option.map_eq_some_iff.mp hk
    have := h x (List.mem_of_getElem? hx)
    split
    · rw [hf]; exact this
    · exact this
  · intro d m
    rcases List.mem_cons.mp m with rfl | m
    · rw [hf]
      simp only [strlcpy, List.length_take]
      omega
    · exact h d m

theorem run_short (np : Ntop) : ∀ (as : List (Answer × Bool)) (t : Tables), (∀ d ∈ t.devices, d.hostname.length ≤ 255) →
    ∀ d ∈ (run np as t).devices, d.hostname.length ≤ 255
  | [], _, h => h
  | a :: as, t, h => by
    show ∀ d ∈ (run np as (ansDev np t a.1 a.2)).devices, _
    refine run_short np as _ ?_
    have v4 := withDev_short h a.1.name (np.v4 a.1.ip)
    have v6 := withDev_short h a.1.name (np.v6 a.1.ip6)
    unfold ansDev
    repeat' (first | exact h | exact v4 | exact v6 | split)

/-- C74: whatever was found, `-d HOST` prints exactly the devices that have this name, in the order of the list. -/
theorem C74_detail_partial (np : Ntop) (as : List (Answer × Bool)) (hc : Clean (run np as {})) (host : Bytes) :
    ∃ chosen : List Dev, chosen.Sublist (run np as {}).devices ∧ (∀ d, d ∈ chosen ↔ d ∈ (run np as {}).devices ∧ Named host d) ∧
      ∃ ls : Dev → List Bytes, lines (printDeviceDetail (some host) (run np as {})) = List.intercalate [[]] (chosen.map ls) ∧
        ∀ d ∈ chosen, Detail (run np as {}) d (ls d) := by
  obtain ⟨ls, h1, h2⟩ := C73_detail_partial (some host) _ hc
  refine ⟨_, List.filter_sublist, fun d => ?_, ls, h1, fun d m => ?_⟩
  · rw [List.mem_filter]
    exact and_congr_right fun m => C74_selected_partial host d (run_short np as {} (by intro _ m; cases m) d m)
  · obtain ⟨m, hm⟩ := List.mem_filter.mp m
    exact h2 d m hm

/-! ### Concrete cases -/

/-- A host `ab.local.` with two addresses and a service. -/
def sampleTables : Tables :=
  run sampleNtop [srvOf [0x69, 0x2E, 0x5F, 0x78, 0x2E, 0x5F, 0x79, 0x2E, 0x6C, 0x2E] [0x61, 0x62, 0x2E, 0x6C, 0x2E] 80,
    addrOf [0x61, 0x62, 0x2E, 0x6C, 0x2E] 0x31, addrOf [0x61, 0x62, 0x2E, 0x6C, 0x2E] 0x32, addrOf [0x63, 0x2E] 0x33] {}

/-- The hypotheses of C73 and C74 hold for it. -/
example : Clean sampleTables := by
  refine ⟨?_, ?_, ?_⟩ <;> decide +kernel

/-- The lines of the table: the title, `c` with its address, `ab.l` with two. -/
example : (lines (printDevices none sampleTables)).map (fun l => (l.takeWhile (· != 0x20), l.length)) =
    [([0x1B, 0x5B, 0x37, 0x6D, 0x4E, 0x41, 0x4D, 0x45], 32), ([0x63], 17), ([0x61, 0x62, 0x2E, 0x6C], 17), ([], 8)] := by
  decide +kernel

example : matchesDetail (some [0x61, 0x62]) ⟨[0x61, 0x62, 0x2E, 0x6C, 0x2E], []⟩ = true ∧
    matchesDetail (some [0x61, 0x62, 0x2E, 0x6C]) ⟨[0x61, 0x62, 0x2E, 0x6C, 0x2E], []⟩ = true ∧
    matchesDetail (some [0x61]) ⟨[0x61, 0x62, 0x2E, 0x6C, 0x2E], []⟩ = false := by decide +kernel

/-- The details of `ab`: four lines, the last with the type `_x._y`. -/
example : (lines (printDeviceDetail (some [0x61, 0x62]) sampleTables)).length = 5 ∧
    ((lines (printDeviceDetail (some [0x61, 0x62]) sampleTables)).getLast?.map fun l => (l.drop 2).take 6) =
      some [0x5F, 0x78, 0x2E, 0x5F, 0x79, 0x20] := by decide +kernel

/-- C73 is false in full: a host whose name has a newline makes a line of its own, here one that shows a host `b` nobody told of. -/
theorem C73_newline_counterexample : ∃ as : List (Answer × Bool), (∀ a ∈ as, Short a) ∧
    (run sampleNtop as {}).devices.length = 1 ∧ (∀ d ∈ (run sampleNtop as {}).devices, ¬ Named [0x62] d) ∧
    ∃ l, (lines (printDevices none (run sampleNtop as {})))[2]? = some l ∧ l.take 2 = [0x62, 0x20] := by
  refine ⟨[addrOf [0x61, 0x0A, 0x62] 0x31], ?_, by decide +kernel, ?_, ?_⟩
  · intro a m
    cases List.mem_singleton.mp m
    exact ⟨by decide, by intro _ h; cases h⟩
  · intro d m
    have : d.hostname = [0x61, 0x0A, 0x62] := by
      have e : (run sampleNtop [addrOf [0x61, 0x0A, 0x62] 0x31] {}).devices = [⟨[0x61, 0x0A, 0x62], [[0x31]]⟩] := by decide +kernel
      rw [e] at m
      cases List.mem_singleton.mp m
      rfl
    rw [Named, this]
    rintro (h | h | ⟨_, rest, h⟩)
    · revert h; decide
    · revert h; decide
    · simp at h
  · refine ⟨[0x62] ++ List.replicate 4 0x20 ++ [0x31] ++ List.replicate 9 0x20, ?_, ?_⟩ <;> decide +kernel

/-- C73 is false in full: in the details the type of an instance whose name has a dot, such as `a.b._x._y.l.`, is cut in the
wrong place (`src/mquery.c:455-463`): `b._x` instead of `_x._y`. -/
theorem C73_dotted_counterexample : ∃ i : Inst, i.iname = [0x61, 0x2E, 0x62] ++ [0x2E, 0x5F, 0x78, 0x2E, 0x5F, 0x79, 0x2E, 0x6C, 0x2E] ∧
    ∃ rest, service i = [0x20, 0x20] ++ [0x62, 0x2E, 0x5F, 0x78] ++ [0x20] ++ rest :=
  ⟨{ iname := [0x61, 0x2E, 0x62, 0x2E, 0x5F, 0x78, 0x2E, 0x5F, 0x79, 0x2E, 0x6C, 0x2E], hostname := [0x61] }, rfl,
    (service { iname := [0x61, 0x2E, 0x62, 0x2E, 0x5F, 0x78, 0x2E, 0x5F, 0x79, 0x2E, 0x6C, 0x2E], hostname := [0x61] }).drop 7,
    by decide +kernel⟩

/-- C74 is false in full: letter case matters, although it does not in host names (RFC 1035, 2.3.3). -/
theorem C74_case_counterexample : matchesDetail (some [0x61, 0x62]) ⟨[0x41, 0x62, 0x2E, 0x6C, 0x2E], []⟩ = false ∧
    caseEq ([0x61, 0x62] ++ [0x2E, 0x6C, 0x2E]) [0x41, 0x62, 0x2E, 0x6C, 0x2E] = true := by decide +kernel

end Mdns.Mquery
