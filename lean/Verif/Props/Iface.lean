import Verif.Model.Iface

/-!
# C49, C50: the addresses of interfaces
-/

namespace Mdns.Iface

/-! ### Specification -/

/-- The system lists the address `a` for the interface `n`, which is up, can
multicast, is not the loopback interface, and was selected with `-i` if that was
given. -/
def Listed (ifname : Option Bytes) (l : List Ifa) (n : Bytes) (a : Addr) : Prop :=
  ∃ e ∈ l, e.name = n ∧ e.loopback = false ∧ e.multicast = true ∧ e.up = true ∧
    (ifname = none ∨ ifname = some n) ∧ e.addr = some a

/-- Classes of IPv4 addresses: 0.0.0.0/8, 169.254.0.0/16 and all others. -/
def class4 (a : Nat) : Nat :=
  if a < 0x01000000 then 0
  else if 0xA9FE0000 ≤ a ∧ a < 0xA9FF0000 then 1
  else 2

/-- Classes of IPv6 addresses: none, link local (fe80::/10), site local
(fec0::/10), unique local (fc00::/7), and all others. -/
def class6 (a : Nat) : Nat :=
  if a = 0 then 0
  else if 0xFE800000000000000000000000000000 ≤ a ∧ a < 0xFEC00000000000000000000000000000 then 1
  else if 0xFEC00000000000000000000000000000 ≤ a ∧ a < 0xFF000000000000000000000000000000 then 2
  else if 0xFC000000000000000000000000000000 ≤ a ∧ a < 0xFE000000000000000000000000000000 then 3
  else 4

/-- Not the null address. -/
def Proper : Addr → Prop
  | .v4 a => a ≠ 0
  | .v6 a => a ≠ 0

/-- No interface has a null address. -/
def AllProper (l : Option (List Ifa)) : Prop :=
  ∀ l', l = some l' → ∀ e ∈ l', ∀ a, e.addr = some a → Proper a

/-- The states the table of interfaces can be in: scans, reloads and removals
after socket errors, starting from the empty table.  A scan may fail (`none`). -/
inductive Reach : List Iface → Prop where
  | start : Reach []
  | scan {t} (ifname l) (h : Reach t) (hl : AllProper l) : Reach (sysInit ifname l t)
  | reload {t} (ifname l) (h : Reach t) (hl : AllProper l) : Reach (reload ifname l t)
  | failed {t} (n : Bytes) (h : Reach t) : Reach (t.filter (·.name != n))

/-! ### Lookup by name -/

/-- The usable addresses of one interface, in the order listed. -/
def cands (ifname : Option Bytes) (l : List Ifa) (n : Bytes) : List Addr :=
  l.filterMap (fun e => if e.name = n then usable ifname e else none)

theorem usable_some (ifname : Option Bytes) (e : Ifa) (a : Addr) :
    usable ifname e = some a ↔ e.loopback = false ∧ e.multicast = true ∧ e.up = true ∧
      (ifname = none ∨ ifname = some e.name) ∧ e.addr = some a := by
  unfold usable
  cases e.loopback <;> cases e.multicast <;> cases e.up <;> simp
  cases ifname with
  | none => simp
  | some n =>
    by_cases hn : n = e.name
    · simp [hn]
    · simp [hn]

theorem mem_cands (ifname : Option Bytes) (l : List Ifa) (n : Bytes) (a : Addr) :
    a ∈ cands ifname l n ↔ Listed ifname l n a := by
  unfold cands Listed
  rw [List.mem_filterMap]
  constructor
  · rintro ⟨e, he, h⟩
    split at h
    · rename_i hn
      have := (usable_some _ _ _).1 h
      exact ⟨e, he, hn, this.1, this.2.1, this.2.2.1, hn ▸ this.2.2.2.1, this.2.2.2.2⟩
    · cases h
  · rintro ⟨e, he, hn, h1, h2, h3, h4, h5⟩
    refine ⟨e, he, ?_⟩
    rw [if_pos hn, usable_some]
    exact ⟨h1, h2, h3, hn ▸ h4, h5⟩

theorem take_name (i : Iface) (a : Addr) : (take i a).name = i.name := by
  cases a <;> (unfold take; dsimp only; split <;> rfl)

theorem find_append (t u : List Iface) (n : Bytes) : find (t ++ u) n = (find t n).or (find u n) :=
  List.find?_append

theorem find_name {t : List Iface} {n : Bytes} {i : Iface} (h : find t n = some i) : i.name = n := by
  have := List.find?_some h
  simpa using this

theorem find_modify (f : Iface → Iface) (hf : ∀ i, (f i).name = i.name) (m n : Bytes) (t : List Iface) :
    find (modify f m t) n = if m = n then (find t n).map f else find t n := by
  induction t with
  | nil => simp [modify, find]
  | cons i t ih =>
    unfold modify
    split
    · rename_i h
      have h : i.name = m := by simpa using h
      subst h
      by_cases hn : i.name = n
      · simp [find, hf, hn]
      · simp [find, hf, hn]
    · rename_i h
      have h : ¬ i.name = m := by simpa using h
      unfold find at ih ⊢
      rw [List.find?_cons, List.find?_cons, ih]
      by_cases hn : i.name = n
      · have : ¬ m = n := fun e => h (by rw [e, hn])
        simp [hn, this]
      · have : (i.name == n) = false := by simpa using hn
        simp [this]

theorem modify_names (f : Iface → Iface) (hf : ∀ i, (f i).name = i.name) (m : Bytes) (t : List Iface) :
    (modify f m t).map (·.name) = t.map (·.name) := by
  induction t with
  | nil => rfl
  | cons i t ih =>
    unfold modify
    split
    · simp [hf]
    · simp [ih]

/-- What the visit of one address does to the interface. -/
def touch (n : Bytes) (o : Option Iface) (a : Addr) : Option Iface :=
  some (take ((o.map (fun i => { i with unused := false })).getD { name := n }) a)

theorem find_visit (ifname : Option Bytes) (t : List Iface) (e : Ifa) (n : Bytes) :
    find (visit ifname t e) n =
      match (if e.name = n then usable ifname e else none) with
      | none => find t n
      | some a => touch n (find t n) a := by
  unfold visit
  cases hu : usable ifname e with
  | none => simp
  | some a =>
    dsimp only
    cases hf : find t e.name with
    | none =>
      simp only [find_append]
      by_cases hn : e.name = n
      · subst hn
        have : find [take { name := e.name } a] e.name = some (take { name := e.name } a) := by
          simp [find, take_name]
        rw [this, hf]; simp [touch]
      · have : find [take { name := e.name } a] n = none := by simp [find, take_name, hn]
        rw [this, if_neg hn]; simp
    | some i =>
      dsimp only
      rw [find_modify (fun i => take { i with unused := false } a) (fun i => take_name _ _)]
      by_cases hn : e.name = n
      · subst hn
        simp [hf, touch]
      · simp [hn]

theorem find_visits (ifname : Option Bytes) (l : List Ifa) (t : List Iface) (n : Bytes) :
    find (l.foldl (visit ifname) t) n = (cands ifname l n).foldl (touch n) (find t n) := by
  induction l generalizing t with
  | nil => rfl
  | cons e l ih =>
    rw [List.foldl_cons, ih, find_visit]
    unfold cands
    rw [List.filterMap_cons]
    cases (if e.name = n then usable ifname e else none) <;> rfl

theorem find_map (f : Iface → Iface) (hf : ∀ i, (f i).name = i.name) (t : List Iface) (n : Bytes) :
    find (t.map f) n = (find t n).map f := by
  unfold find
  rw [List.find?_map]
  congr 1
  congr 1
  funext i
  simp [hf]

theorem sweep1_name (i : Iface) : (sweep1 i).name = i.name := by
  unfold sweep1; repeat' split
  all_goals rfl

theorem find_scan (ifname : Option Bytes) (l : List Ifa) (t : List Iface) (n : Bytes) :
    find (scan ifname (some l) t) n =
      ((cands ifname l n).foldl (touch n) ((find t n).map mark1)).map sweep1 := by
  unfold scan
  dsimp only
  rw [find_map _ sweep1_name, find_visits, find_map mark1 (fun _ => rfl)]

/-! ### Names are distinct -/

def Distinct (t : List Iface) : Prop := (t.map (·.name)).Nodup

theorem Distinct.find {t : List Iface} (h : Distinct t) {i : Iface} (hi : i ∈ t) : find t i.name = some i := by
  induction t with
  | nil => cases hi
  | cons j t ih =>
    unfold Distinct at h
    rw [List.map_cons, List.nodup_cons] at h
    unfold Iface.find
    rw [List.find?_cons]
    rcases List.mem_cons.1 hi with rfl | hi
    · simp
    · have : (j.name == i.name) = false := by
        simp only [beq_eq_false_iff_ne]
        intro e
        exact h.1 (e ▸ List.mem_map.2 ⟨i, hi, rfl⟩)
      rw [this]
      exact ih h.2 hi

theorem find_none_iff (t : List Iface) (n : Bytes) : find t n = none ↔ n ∉ t.map (·.name) := by
  unfold find
  rw [List.find?_eq_none]
  simp

theorem visit_distinct (ifname : Option Bytes) (t : List Iface) (e : Ifa) (h : Distinct t) :
    Distinct (visit ifname t e) := by
  unfold visit
  cases usable ifname e with
  | none => exact h
  | some a =>
    dsimp only
    cases hf : find t e.name with
    | none =>
      unfold Distinct at h ⊢
      rw [List.map_append, List.nodup_append]
      refine ⟨h, by simp, ?_⟩
      intro x hx y hy
      simp only [List.map_cons, List.map_nil, take_name, List.mem_singleton] at hy
      subst hy
      rintro rfl
      exact (find_none_iff t e.name).1 hf hx
    | some i =>
      unfold Distinct at h ⊢
      dsimp only
      rw [modify_names (fun i => take { i with unused := false } a) (fun i => take_name _ _)]
      exact h

theorem map_distinct (f : Iface → Iface) (hf : ∀ i, (f i).name = i.name) (t : List Iface) (h : Distinct t) :
    Distinct (t.map f) := by
  unfold Distinct at h ⊢
  rw [List.map_map]
  have : ((fun x : Iface => x.name) ∘ f) = (·.name) := by funext i; exact hf i
  rw [this]; exact h

theorem scan_distinct (ifname : Option Bytes) (l : Option (List Ifa)) (t : List Iface) (h : Distinct t) :
    Distinct (scan ifname l t) := by
  cases l with
  | none => exact h
  | some l =>
    refine map_distinct _ sweep1_name _ ?_
    have h := map_distinct mark1 (fun _ => rfl) t h
    generalize t.map mark1 = u at h
    induction l generalizing u with
    | nil => exact h
    | cons e l ih => exact ih _ (visit_distinct _ _ _ h)

theorem setup1_name {i j : Iface} (h : setup1 i = some j) : j.name = i.name := by
  unfold setup1 at h
  split at h
  · cases h; rfl
  · split at h <;> cases h; rfl

theorem sysInit_distinct (ifname : Option Bytes) (l : Option (List Ifa)) (t : List Iface) (h : Distinct t) :
    Distinct (sysInit ifname l t) := by
  have h := scan_distinct ifname l t h
  unfold sysInit
  generalize scan ifname l t = u at h
  have sub : ((u.filterMap setup1).map (·.name)).Sublist (u.map (·.name)) := by
    clear h
    induction u with
    | nil => simp
    | cons i u ih =>
      rw [List.filterMap_cons]
      cases hs : setup1 i with
      | none => exact (List.Sublist.cons _ ih)
      | some j =>
        simp only [List.map_cons, setup1_name hs]
        exact List.Sublist.cons_cons _ ih
  exact h.sublist sub

theorem Reach.distinct {t : List Iface} (h : Reach t) : Distinct t := by
  induction h with
  | start => exact List.nodup_nil
  | scan ifname l _ _ ih => exact sysInit_distinct _ _ _ ih
  | reload ifname l _ _ ih =>
    exact map_distinct (fun i => { i with conf := some (i.in4, i.in6) }) (fun _ => rfl) _
      (sysInit_distinct _ _ _ ih)
  | failed n _ ih =>
    exact List.Nodup.sublist (List.Sublist.map (fun i : Iface => i.name) List.filter_sublist) ih

/-! ### The choice -/

def pick4 (c a : Nat) : Nat := if c ≠ a ∧ (zeronet c || linklocal c) then a else c

def pick6 (c a : Nat) : Nat :=
  if c ≠ a ∧ (c == 0 || linklocal6 c || (sitelocal6 c && !linklocal6 a) ||
    (unique6 c && !sitelocal6 a && !linklocal6 a)) then a else c

def v4s (l : List Addr) : List Nat := l.filterMap (fun | .v4 a => some a | .v6 _ => none)
def v6s (l : List Addr) : List Nat := l.filterMap (fun | .v6 a => some a | .v4 _ => none)

theorem mem_v4s (l : List Addr) (a : Nat) : a ∈ v4s l ↔ .v4 a ∈ l := by
  unfold v4s
  rw [List.mem_filterMap]
  constructor
  · rintro ⟨x, hx, h⟩
    cases x <;> simp at h
    subst h; exact hx
  · exact fun h => ⟨_, h, rfl⟩

theorem mem_v6s (l : List Addr) (a : Nat) : a ∈ v6s l ↔ .v6 a ∈ l := by
  unfold v6s
  rw [List.mem_filterMap]
  constructor
  · rintro ⟨x, hx, h⟩
    cases x <;> simp at h
    subst h; exact hx
  · exact fun h => ⟨_, h, rfl⟩

theorem take_v4 (i : Iface) (a : Nat) : (take i (.v4 a)).in4 = pick4 i.in4 a ∧ (take i (.v4 a)).in6 = i.in6 := by
  unfold take pick4; dsimp only; split <;> simp

theorem take_v6 (i : Iface) (a : Nat) : (take i (.v6 a)).in6 = pick6 i.in6 a ∧ (take i (.v6 a)).in4 = i.in4 := by
  unfold take pick6; dsimp only; split <;> simp

theorem take_rest (i : Iface) (a : Addr) : (take i a).unused = i.unused ∧ (take i a).old4 = i.old4 ∧
    (take i a).old6 = i.old6 ∧ (take i a).conf = i.conf := by
  cases a <;> (unfold take; dsimp only; split <;> simp)

theorem takes (l : List Addr) (i : Iface) :
    (l.foldl take i).in4 = (v4s l).foldl pick4 i.in4 ∧ (l.foldl take i).in6 = (v6s l).foldl pick6 i.in6 ∧
    (l.foldl take i).name = i.name ∧ (l.foldl take i).unused = i.unused ∧
    (l.foldl take i).old4 = i.old4 ∧ (l.foldl take i).old6 = i.old6 ∧ (l.foldl take i).conf = i.conf := by
  induction l generalizing i with
  | nil => simp [v4s, v6s]
  | cons a l ih =>
    have h := ih (take i a)
    have r := take_rest i a
    rw [take_name, r.1, r.2.1, r.2.2.1, r.2.2.2] at h
    rw [List.foldl_cons]
    refine ⟨?_, ?_, h.2.2⟩
    · rw [h.1]
      cases a with
      | v4 a => rw [(take_v4 i a).1]; rfl
      | v6 a => rw [(take_v6 i a).2]; rfl
    · rw [h.2.1]
      cases a with
      | v4 a => rw [(take_v4 i a).2]; rfl
      | v6 a => rw [(take_v6 i a).1]; rfl

theorem touches (n : Bytes) (l : List Addr) (o : Option Iface) (hl : l ≠ []) :
    l.foldl (touch n) o =
      some (l.foldl take ((o.map (fun i => { i with unused := false })).getD { name := n })) := by
  cases l with
  | nil => exact absurd rfl hl
  | cons a l =>
    clear hl
    rw [List.foldl_cons, List.foldl_cons, touch]
    have hu : (take ((o.map (fun i => { i with unused := false })).getD { name := n }) a).unused = false := by
      rw [(take_rest _ _).1]
      cases o <;> rfl
    generalize take ((o.map (fun i => { i with unused := false })).getD { name := n }) a = i at hu
    clear o
    induction l generalizing i with
    | nil => rfl
    | cons b l ih =>
      rw [List.foldl_cons, List.foldl_cons]
      have e : touch n (some i) b = some (take i b) := by
        unfold touch
        have : ({ i with unused := false } : Iface) = i := by cases i; simp at hu; simp [hu]
        simp [this]
      rw [e]
      exact ih _ (by rw [(take_rest _ _).1]; exact hu)

theorem class4_iff (a : Nat) : (zeronet a = true ↔ class4 a = 0) ∧ (linklocal a = true ↔ class4 a = 1) := by
  have h1 : zeronet a = true ↔ a < 0x01000000 := by
    simp [zeronet]
  have h2 : linklocal a = true ↔ (0xA9FE0000 ≤ a ∧ a < 0xA9FF0000) := by
    simp [linklocal]; omega
  rw [h1, h2]
  unfold class4
  constructor <;> (repeat' split) <;> omega

theorem class6_iff (a : Nat) : (linklocal6 a = true ↔ class6 a = 1) ∧ (sitelocal6 a = true ↔ class6 a = 2) ∧
    (unique6 a = true ↔ class6 a = 3) := by
  have h1 : linklocal6 a = true ↔
      (0xFE800000000000000000000000000000 ≤ a ∧ a < 0xFEC00000000000000000000000000000) := by
    simp [linklocal6]; omega
  have h2 : sitelocal6 a = true ↔
      (0xFEC00000000000000000000000000000 ≤ a ∧ a < 0xFF000000000000000000000000000000) := by
    simp [sitelocal6]; omega
  have h3 : unique6 a = true ↔
      (0xFC000000000000000000000000000000 ≤ a ∧ a < 0xFE000000000000000000000000000000) := by
    simp [unique6]; omega
  rw [h1, h2, h3]
  unfold class6
  refine ⟨?_, ?_, ?_⟩ <;> (repeat' split) <;> omega

theorem class4_le (a : Nat) : class4 a ≤ 2 := by unfold class4; (repeat' split) <;> omega
theorem class6_le (a : Nat) : class6 a ≤ 4 := by unfold class6; (repeat' split) <;> omega
theorem class6_zero (a : Nat) : class6 a = 0 ↔ a = 0 := by
  unfold class6; (repeat' split) <;> omega

theorem pick4_class (c a : Nat) (ha : class4 a ≠ 0) :
    class4 c ≤ class4 (pick4 c a) ∧ class4 a ≤ class4 (pick4 c a) ∧ (pick4 c a = c ∨ pick4 c a = a) := by
  have hc := class4_iff c
  have := class4_le a
  have := class4_le c
  unfold pick4
  split
  · rename_i h
    simp only [Bool.or_eq_true, hc.1, hc.2] at h
    omega
  · rename_i h
    simp only [Bool.or_eq_true, hc.1, hc.2] at h
    by_cases e : c = a
    · subst e; omega
    · simp [e] at h; omega

theorem pick6_class (c a : Nat) (ha : class6 a ≠ 0) :
    class6 c ≤ class6 (pick6 c a) ∧ class6 a ≤ class6 (pick6 c a) ∧ (pick6 c a = c ∨ pick6 c a = a) := by
  obtain ⟨c1, c2, c3⟩ := class6_iff c
  obtain ⟨a1, a2, -⟩ := class6_iff a
  have := class6_le a
  have := class6_le c
  have hz := class6_zero c
  have n1 : linklocal6 a = false ↔ class6 a ≠ 1 := by rw [← Bool.not_eq_true, a1]
  have n2 : sitelocal6 a = false ↔ class6 a ≠ 2 := by rw [← Bool.not_eq_true, a2]
  unfold pick6
  split
  · rename_i h
    simp only [Bool.or_eq_true, Bool.and_eq_true, Bool.not_eq_true', beq_iff_eq, c1, c2, c3, n1, n2] at h
    omega
  · rename_i h
    simp only [Bool.or_eq_true, Bool.and_eq_true, Bool.not_eq_true', beq_iff_eq, c1, c2, c3, n1, n2] at h
    by_cases e : c = a
    · subst e; omega
    · simp only [e, ne_eq, not_false_eq_true, true_and] at h; omega

theorem best (cl : Nat → Nat) (pick : Nat → Nat → Nat)
    (hp : ∀ c a, cl a ≠ 0 → cl c ≤ cl (pick c a) ∧ cl a ≤ cl (pick c a) ∧ (pick c a = c ∨ pick c a = a))
    (l : List Nat) (c : Nat) (hl : ∀ a ∈ l, cl a ≠ 0) :
    cl c ≤ cl (l.foldl pick c) ∧ (∀ a ∈ l, cl a ≤ cl (l.foldl pick c)) ∧
      (l.foldl pick c = c ∨ l.foldl pick c ∈ l) := by
  induction l generalizing c with
  | nil => simp
  | cons a l ih =>
    have h := hp c a (hl a (by simp))
    obtain ⟨i1, i2, i3⟩ := ih (pick c a) (fun x hx => hl x (by simp [hx]))
    rw [List.foldl_cons]
    refine ⟨by omega, ?_, ?_⟩
    · intro x hx
      rcases List.mem_cons.1 hx with rfl | hx
      · omega
      · exact i2 x hx
    · rcases i3 with i3 | i3
      · rcases h.2.2 with h3 | h3
        · left; rw [i3, h3]
        · right; rw [i3, h3]; simp
      · right; simp [i3]

/-- The interface after a scan that lists addresses for it. -/
theorem scan_used (ifname : Option Bytes) (l : List Ifa) (t : List Iface) (n : Bytes) (a : Addr)
    (h : Listed ifname l n a) :
    ∃ i, find (scan ifname (some l) t) n = some (sweep1 i) ∧ i.unused = false ∧
      i.in4 = (v4s (cands ifname l n)).foldl pick4 0 ∧ i.in6 = (v6s (cands ifname l n)).foldl pick6 0 ∧
      i.old4 = ((find t n).map (·.in4)).getD 0 ∧ i.old6 = ((find t n).map (·.in6)).getD 0 ∧
      i.conf = (find t n).bind (·.conf) ∧
      i = (cands ifname l n).foldl take
        ((((find t n).map mark1).map (fun i => { i with unused := false })).getD { name := n }) := by
  have hne : cands ifname l n ≠ [] := fun e => by
    have := (mem_cands ifname l n a).2 h
    rw [e] at this; cases this
  refine ⟨_, ?_, ?_, ?_, ?_, ?_, ?_, ?_, rfl⟩
  · rw [find_scan, touches _ _ _ hne]; rfl
  all_goals
    have T := takes (cands ifname l n)
      ((((find t n).map mark1).map (fun i => { i with unused := false })).getD { name := n })
  · rw [T.2.2.2.1]; cases find t n <;> rfl
  · rw [T.1]; cases find t n <;> rfl
  · rw [T.2.1]; cases find t n <;> rfl
  · rw [T.2.2.2.2.1]; cases find t n <;> rfl
  · rw [T.2.2.2.2.2.1]; cases find t n <;> rfl
  · rw [T.2.2.2.2.2.2]; cases find t n <;> rfl

theorem sweep1_same (i : Iface) : (sweep1 i).in4 = i.in4 ∧ (sweep1 i).in6 = i.in6 ∧
    (sweep1 i).unused = i.unused ∧ (sweep1 i).conf = i.conf := by
  unfold sweep1; (repeat' split) <;> simp

/-- **C49.** After a scan, an interface with IPv4 addresses has one of them, and
none of another class would be better; likewise for IPv6.  This holds for every
table and list, in whatever order, provided no interface has an IPv4 address of
0.0.0.0/8 or the IPv6 address `::`. -/
theorem C49_best_class_partial (ifname : Option Bytes) (l : List Ifa) (t : List Iface) (n : Bytes) (a : Addr)
    (h : Listed ifname l n a)
    (h4 : ∀ a, Listed ifname l n (.v4 a) → class4 a ≠ 0)
    (h6 : ∀ a, Listed ifname l n (.v6 a) → class6 a ≠ 0) :
    ∃ i, find (scan ifname (some l) t) n = some i ∧ i.unused = false ∧
      (∀ a, Listed ifname l n (.v4 a) →
        Listed ifname l n (.v4 i.in4) ∧ class4 a ≤ class4 i.in4) ∧
      ((∀ a, ¬ Listed ifname l n (.v4 a)) → i.in4 = 0) ∧
      (∀ a, Listed ifname l n (.v6 a) →
        Listed ifname l n (.v6 i.in6) ∧ class6 a ≤ class6 i.in6) ∧
      ((∀ a, ¬ Listed ifname l n (.v6 a)) → i.in6 = 0) := by
  obtain ⟨i, hf, hu, e4, e6, -⟩ := scan_used ifname l t n a h
  have s := sweep1_same i
  have m4 : ∀ a, a ∈ v4s (cands ifname l n) ↔ Listed ifname l n (.v4 a) := fun a => by rw [mem_v4s, mem_cands]
  have m6 : ∀ a, a ∈ v6s (cands ifname l n) ↔ Listed ifname l n (.v6 a) := fun a => by rw [mem_v6s, mem_cands]
  have b4 := best class4 pick4 pick4_class (v4s (cands ifname l n)) 0 (fun a ha => h4 a ((m4 a).1 ha))
  have b6 := best class6 pick6 pick6_class (v6s (cands ifname l n)) 0 (fun a ha => h6 a ((m6 a).1 ha))
  rw [← e4] at b4
  rw [← e6] at b6
  refine ⟨sweep1 i, hf, by rw [s.2.2.1, hu], ?_, ?_, ?_, ?_⟩
  · intro a ha
    rw [s.1]
    have hle := b4.2.1 a ((m4 a).2 ha)
    refine ⟨?_, hle⟩
    rcases b4.2.2 with e | e
    · have z : class4 0 = 0 := by decide
      have := h4 a ha
      rw [e, z] at hle; omega
    · exact (m4 _).1 e
  · intro no
    rw [s.1, e4]
    have : v4s (cands ifname l n) = [] := List.eq_nil_iff_forall_not_mem.2 (fun a ha => no a ((m4 a).1 ha))
    rw [this]; rfl
  · intro a ha
    rw [s.2.1]
    have hle := b6.2.1 a ((m6 a).2 ha)
    refine ⟨?_, hle⟩
    rcases b6.2.2 with e | e
    · have z : class6 0 = 0 := by decide
      have := h6 a ha
      rw [e, z] at hle; omega
    · exact (m6 _).1 e
  · intro no
    rw [s.2.1, e6]
    have : v6s (cands ifname l n) = [] := List.eq_nil_iff_forall_not_mem.2 (fun a ha => no a ((m6 a).1 ha))
    rw [this]; rfl

/-- Four entries for one interface, in an unfavourable order: the global address
of the middle is chosen. -/
def sampleList : List Ifa :=
  [⟨[0x65], false, true, true, some (.v6 0xFE800000000000000000000000000001)⟩,
   ⟨[0x65], false, true, true, some (.v6 0x20010DB8000000000000000000000001)⟩,
   ⟨[0x65], false, true, true, some (.v6 0xFC000000000000000000000000000001)⟩,
   ⟨[0x65], false, true, true, some (.v4 0xA9FE0101)⟩,
   ⟨[0x65], false, true, true, some (.v4 0x0A000001)⟩,
   ⟨[0x6C], true, true, true, some (.v4 0x7F000001)⟩]

example : scan none (some sampleList) [] =
    [{ name := [0x65], changed := true, in4 := 0x0A000001, in6 := 0x20010DB8000000000000000000000001 }] := by
  decide +kernel

theorem sample_listed (a : Addr) : Listed none sampleList [0x65] a ↔
    a ∈ [Addr.v6 0xFE800000000000000000000000000001, .v6 0x20010DB8000000000000000000000001,
      .v6 0xFC000000000000000000000000000001, .v4 0xA9FE0101, .v4 0x0A000001] := by
  rw [← mem_cands]
  have : cands none sampleList [0x65] = [Addr.v6 0xFE800000000000000000000000000001,
    .v6 0x20010DB8000000000000000000000001, .v6 0xFC000000000000000000000000000001, .v4 0xA9FE0101,
    .v4 0x0A000001] := by decide +kernel
  rw [this]

example : (∀ a, Listed none sampleList [0x65] (.v4 a) → class4 a ≠ 0) ∧
    (∀ a, Listed none sampleList [0x65] (.v6 a) → class6 a ≠ 0) := by
  constructor
  · intro a h
    rw [sample_listed] at h
    simp at h
    rcases h with rfl | rfl <;> decide
  · intro a h
    rw [sample_listed] at h
    simp at h
    rcases h with rfl | rfl | rfl <;> decide

/-- The claim fails for an address of 0.0.0.0/8 after a link local one. -/
theorem C49_zeronet_counterexample : ∃ l i, find (scan none (some l) []) [0x65] = some i ∧
    Listed none l [0x65] (.v4 0xA9FE0101) ∧ class4 i.in4 < class4 0xA9FE0101 :=
  ⟨[⟨[0x65], false, true, true, some (.v4 0xA9FE0101)⟩, ⟨[0x65], false, true, true, some (.v4 5)⟩],
    { name := [0x65], changed := true, in4 := 5 }, by decide +kernel, ⟨_, .head _, rfl, rfl, rfl, rfl, .inl rfl, rfl⟩, by decide⟩

/-! ### C50: changes -/

theorem take_changed (i : Iface) (a : Addr) :
    (take i a).changed = true ∨ take i a = i := by
  cases a <;> (unfold take; dsimp only; split <;> simp)

theorem take_keeps (i : Iface) (a : Addr) (h : i.changed = true) : (take i a).changed = true := by
  rcases take_changed i a with x | x
  · exact x
  · rw [x]; exact h

theorem takes_keep (l : List Addr) (i : Iface) (h : i.changed = true) : (l.foldl take i).changed = true := by
  induction l generalizing i with
  | nil => exact h
  | cons a l ih => exact ih _ (take_keeps i a h)

theorem takes_changed (l : List Addr) (i : Iface) :
    (l.foldl take i).changed = true ∨ ∀ a ∈ l, take i a = i := by
  induction l generalizing i with
  | nil => right; simp
  | cons a l ih =>
    rw [List.foldl_cons]
    rcases take_changed i a with x | x
    · exact .inl (takes_keep l _ x)
    · rw [x]
      rcases ih i with h | h
      · exact .inl h
      · right
        intro b hb
        rcases List.mem_cons.1 hb with rfl | hb
        · exact x
        · exact h b hb

theorem take_first (i : Iface) (a : Addr) (h4 : i.in4 = 0) (h6 : i.in6 = 0) (ha : Proper a) :
    (take i a).changed = true ∧ take i a ≠ i := by
  cases a with
  | v4 a =>
    have : (0 : Nat) ≠ a := fun e => ha e.symm
    have e : take i (.v4 a) = { i with in4 := a, changed := true } := by
      simp [take, h4, this, zeronet]
    rw [e]
    exact ⟨rfl, fun x => ha (by rw [← h4]; exact congrArg Iface.in4 x)⟩
  | v6 a =>
    have : (0 : Nat) ≠ a := fun e => ha e.symm
    have e : take i (.v6 a) = { i with in6 := a, changed := true } := by
      simp [take, h6, this]
    rw [e]
    exact ⟨rfl, fun x => ha (by rw [← h6]; exact congrArg Iface.in6 x)⟩

theorem scan_flag (ifname : Option Bytes) (l : List Ifa) (t : List Iface) (n : Bytes) (a : Addr)
    (h : Listed ifname l n a) (ha : Proper a) :
    ∃ i, find (scan ifname (some l) t) n = some i ∧ i.unused = false ∧
      i.conf = (find t n).bind (·.conf) ∧
      (i.changed = true ↔ (i.in4, i.in6) ≠
        ((find t n).map (fun j => (j.in4, j.in6))).getD (0, 0)) := by
  obtain ⟨i, hf, hu, e4, e6, o4, o6, ec, hi⟩ := scan_used ifname l t n a h
  have s := sweep1_same i
  refine ⟨_, hf, by rw [s.2.2.1, hu], by rw [s.2.2.2, ec], ?_⟩
  rw [s.1, s.2.1]
  have ho : ((find t n).map (fun j => (j.in4, j.in6))).getD (0, 0) = (i.old4, i.old6) := by
    rw [o4, o6]; cases find t n <;> rfl
  rw [ho]
  have hch : i.changed = true := by
    rcases takes_changed (cands ifname l n)
      ((((find t n).map mark1).map (fun i => { i with unused := false })).getD { name := n }) with x | x
    · rw [hi]; exact x
    · refine absurd (x a ((mem_cands _ _ _ _).2 h)) (take_first _ _ ?_ ?_ ha).2 <;> cases find t n <;> rfl
  unfold sweep1
  rw [hu, hch]
  simp only [Bool.false_eq_true, if_false, Bool.not_true, ne_eq, Prod.mk.injEq]
  split
  · rename_i e; simp [e]
  · rename_i e; simp [e, hch]

/-- **C50.** A rescan flags an interface which has addresses if, and only if,
the chosen addresses differ from the ones before (those of a new interface are
0.0.0.0 and `::`).  In particular a scan that finds the same addresses flags
nothing. -/
theorem C50_flagged_iff (ifname : Option Bytes) (l : List Ifa) (t : List Iface) (n : Bytes) (a : Addr)
    (h : Listed ifname l n a) (ha : Proper a) :
    ∃ i, find (scan ifname (some l) t) n = some i ∧ i.unused = false ∧
      (i.changed = true ↔ (i.in4, i.in6) ≠
        ((find t n).map (fun j => (j.in4, j.in6))).getD (0, 0)) := by
  obtain ⟨i, h1, h2, -, h3⟩ := scan_flag ifname l t n a h ha
  exact ⟨i, h1, h2, h3⟩

theorem setup1_changed {i j : Iface} (h : setup1 i = some j) : j.changed = false := by
  unfold setup1 at h
  split at h
  · cases h; rename_i x; simpa using x
  · split at h <;> cases h; rfl

theorem find_sysInit (ifname : Option Bytes) (l : Option (List Ifa)) (t : List Iface) (n : Bytes)
    (h : Distinct t) : find (sysInit ifname l t) n = (find (scan ifname l t) n).bind setup1 := by
  have h := scan_distinct ifname l t h
  unfold sysInit
  generalize scan ifname l t = u at h
  induction u with
  | nil => rfl
  | cons i u ih =>
    unfold Distinct at h
    rw [List.map_cons, List.nodup_cons] at h
    have ih := ih h.2
    rw [List.filterMap_cons]
    have hc : find (i :: u) n = if i.name = n then some i else find u n := by
      unfold find; rw [List.find?_cons]
      by_cases e : i.name = n
      · simp [e]
      · have : (i.name == n) = false := by simpa using e
        simp [this, e]
    rw [hc]
    cases hs : setup1 i with
    | none =>
      dsimp only
      rw [ih]
      by_cases e : i.name = n
      · have : find u n = none := (find_none_iff u n).2 (e ▸ h.1)
        rw [if_pos e, this]; simp [hs]
      · rw [if_neg e]
    | some j =>
      dsimp only
      have hj := setup1_name hs
      unfold find at ih ⊢
      rw [List.find?_cons, ih, hj]
      by_cases e : i.name = n
      · simp [e, hs]
      · have : (i.name == n) = false := by simpa using e
        simp [this, e]

/-- What is known about every interface between two scans. -/
def Settled (i : Iface) : Prop :=
  i.changed = false ∧ (i.unused = false → i.conf = some (i.in4, i.in6)) ∧
    (i.unused = true → i.in4 = 0 ∧ i.in6 = 0)

theorem find_of_mem {t : List Iface} (h : Distinct t) {i : Iface} (hi : i ∈ t) : find t i.name = some i := h.find hi

theorem listed_proper {ifname : Option Bytes} {l : List Ifa} {n : Bytes} {a : Addr}
    (hl : AllProper (some l)) (h : Listed ifname l n a) : Proper a := by
  obtain ⟨e, he, -, -, -, -, -, ha⟩ := h
  exact hl l rfl e he a ha

/-- An interface the scan lists nothing for. -/
theorem scan_unlisted (ifname : Option Bytes) (l : List Ifa) (t : List Iface) (n : Bytes)
    (h : ∀ a, ¬ Listed ifname l n a) :
    find (scan ifname (some l) t) n = ((find t n).map mark1).map sweep1 := by
  have : cands ifname l n = [] :=
    List.eq_nil_iff_forall_not_mem.2 (fun a ha => h a ((mem_cands _ _ _ _).1 ha))
  rw [find_scan, this]; rfl

theorem pick_ne (pick : Nat → Nat → Nat) (hp : ∀ c a, pick c a = c ∨ pick c a = a)
    (h0 : ∀ a, pick 0 a = a) (l : List Nat) (c : Nat) (hl : ∀ a ∈ l, a ≠ 0) (h : c ≠ 0 ∨ l ≠ []) :
    l.foldl pick c ≠ 0 := by
  induction l generalizing c with
  | nil => simpa using h
  | cons a l ih =>
    rw [List.foldl_cons]
    have ha := hl a (by simp)
    refine ih _ (fun x hx => hl x (by simp [hx])) (.inl ?_)
    rcases Decidable.em (c = 0) with rfl | hc
    · rw [h0]; exact ha
    · rcases hp c a with e | e <;> rw [e] <;> assumption

theorem settled_scan (ifname : Option Bytes) (l : Option (List Ifa)) (t : List Iface) (hd : Distinct t)
    (ht : ∀ i ∈ t, Settled i) (hl : AllProper l) : ∀ i ∈ sysInit ifname l t, Settled i := by
  intro j hj
  have hf := (sysInit_distinct ifname l t hd).find hj
  rw [find_sysInit _ _ _ _ hd] at hf
  cases hs : find (scan ifname l t) j.name with
  | none => rw [hs] at hf; cases hf
  | some i =>
    rw [hs] at hf
    have hf : setup1 i = some j := hf
    cases l with
    | none =>
      have hi : i ∈ t := List.mem_of_find?_eq_some hs
      have := ht i hi
      unfold setup1 at hf
      rw [this.1] at hf
      simp at hf
      subst hf; exact this
    | some l =>
      by_cases hx : ∃ a, Listed ifname l j.name a
      · obtain ⟨a, ha⟩ := hx
        obtain ⟨i', h1, h2, h3, h4⟩ := scan_flag ifname l t j.name a ha (listed_proper hl ha)
        rw [hs] at h1
        obtain rfl : i = i' := by injection h1
        cases hc : i.changed with
        | true =>
          unfold setup1 at hf
          rw [hc, h2] at hf
          simp at hf
          subst hf
          exact ⟨rfl, fun _ => rfl, fun x => absurd x (by simp)⟩
        | false =>
          unfold setup1 at hf
          rw [hc] at hf
          simp at hf
          subst hf
          refine ⟨hc, fun _ => ?_, fun x => by rw [h2] at x; cases x⟩
          have heq : (i.in4, i.in6) = ((find t i.name).map (fun j => (j.in4, j.in6))).getD (0, 0) := by
            rcases Decidable.em ((i.in4, i.in6) = ((find t i.name).map (fun j => (j.in4, j.in6))).getD (0, 0)) with x | x
            · exact x
            · rw [h4.2 x] at hc; cases hc
          have hnz : (i.in4, i.in6) ≠ (0, 0) := by
            obtain ⟨i2, g1, -, g4, g6, -⟩ := scan_used ifname l t i.name a ha
            rw [hs] at g1
            have e1 : i = sweep1 i2 := by injection g1
            have z := sweep1_same i2
            rw [e1, z.1, z.2.1, g4, g6]
            simp only [ne_eq, Prod.mk.injEq]
            cases a with
            | v4 a =>
              refine fun hz => absurd hz.1 ?_
              refine pick_ne pick4 (fun c a => by unfold pick4; split <;> simp)
                (fun a => by unfold pick4; simp [zeronet]) _ _ (fun x hx => ?_)
                (.inr (List.ne_nil_of_mem ((mem_v4s _ _).2 ((mem_cands _ _ _ _).2 ha))))
              exact listed_proper hl ((mem_cands _ _ _ _).1 ((mem_v4s _ _).1 hx))
            | v6 a =>
              refine fun hz => absurd hz.2 ?_
              refine pick_ne pick6 (fun c a => by unfold pick6; split <;> simp)
                (fun a => by unfold pick6; simp) _ _ (fun x hx => ?_)
                (.inr (List.ne_nil_of_mem ((mem_v6s _ _).2 ((mem_cands _ _ _ _).2 ha))))
              exact listed_proper hl ((mem_cands _ _ _ _).1 ((mem_v6s _ _).1 hx))
          cases hfi : find t i.name with
          | none => rw [hfi] at heq; exact absurd heq hnz
          | some k =>
            rw [hfi] at heq h3
            have hk := ht k (List.mem_of_find?_eq_some hfi)
            cases hu : k.unused with
            | true =>
              have := hk.2.2 hu
              simp [this] at heq
              exact absurd (by simp [heq]) hnz
            | false =>
              rw [h3, heq]
              exact hk.2.1 hu
      · have hno : ∀ a, ¬ Listed ifname l j.name a := fun a ha => hx ⟨a, ha⟩
        rw [scan_unlisted _ _ _ _ hno] at hs
        cases hfi : find t j.name with
        | none => rw [hfi] at hs; cases hs
        | some k =>
          rw [hfi] at hs
          have hk := ht k (List.mem_of_find?_eq_some hfi)
          have e : i = mark1 k := by
            have : sweep1 (mark1 k) = mark1 k := by simp [sweep1, mark1]
            simp only [Option.map_some, this] at hs
            injection hs with hs; exact hs.symm
          subst e
          have hc : (mark1 k).changed = false := hk.1
          unfold setup1 at hf
          rw [hc] at hf
          simp at hf
          subst hf
          exact ⟨hc, fun x => absurd x (by simp [mark1]), fun _ => ⟨rfl, rfl⟩⟩

theorem Reach.settled {t : List Iface} (h : Reach t) : ∀ i ∈ t, Settled i := by
  induction h with
  | start => intro i hi; cases hi
  | scan ifname l h hl ih => exact settled_scan ifname l _ h.distinct ih hl
  | reload ifname l h hl ih =>
    intro i hi
    obtain ⟨j, hj, rfl⟩ := List.mem_map.1 hi
    have := settled_scan ifname l _ h.distinct ih hl j hj
    exact ⟨this.1, fun _ => rfl, this.2.2⟩
  | failed n h ih => exact fun i hi => ih i (List.mem_filter.1 hi).1

/-- **C50.** Between scans, nothing is flagged, and every interface that is in
use was set up with its present addresses: no change of a chosen address is
lost, in any sequence of scans. -/
theorem C50_configured (t : List Iface) (ht : Reach t) (i : Iface) (hi : i ∈ t) :
    i.changed = false ∧ (i.unused = false → i.conf = some (i.in4, i.in6)) :=
  ⟨(ht.settled i hi).1, (ht.settled i hi).2.1⟩

theorem setup1_same {i j : Iface} (h : setup1 i = some j) : j.in4 = i.in4 ∧ j.in6 = i.in6 ∧ j.unused = i.unused := by
  unfold setup1 at h
  split at h
  · cases h; simp
  · split at h <;> cases h; simp

/-- **C50.** The same list twice: the second scan flags nothing, in every state
the table can be in. -/
theorem C50_same_again (ifname : Option Bytes) (l : List Ifa) (t : List Iface) (ht : Reach t)
    (hl : AllProper (some l)) (i : Iface)
    (hi : i ∈ scan ifname (some l) (sysInit ifname (some l) t)) : i.changed = false := by
  have hd := ht.distinct
  have hd1 := sysInit_distinct ifname (some l) t hd
  have hf := (scan_distinct ifname (some l) _ hd1).find hi
  by_cases hx : ∃ a, Listed ifname l i.name a
  · obtain ⟨a, ha⟩ := hx
    obtain ⟨i', h1, -, h3⟩ := C50_flagged_iff ifname l (sysInit ifname (some l) t) i.name a ha (listed_proper hl ha)
    rw [hf] at h1
    obtain rfl : i = i' := by injection h1
    obtain ⟨k, k1, -, k4, k6, -⟩ := scan_used ifname l (sysInit ifname (some l) t) i.name a ha
    obtain ⟨m, m1, m0, m4, m6, -⟩ := scan_used ifname l t i.name a ha
    rw [hf] at k1
    have e1 : i = sweep1 k := by injection k1
    have z := sweep1_same k
    have y := sweep1_same m
    have hfs : find (sysInit ifname (some l) t) i.name = setup1 (sweep1 m) := by
      rw [find_sysInit _ _ _ _ hd, m1]; rfl
    have hsome : ∃ w, setup1 (sweep1 m) = some w := by
      unfold setup1
      rw [y.2.2.1, m0]
      split
      · exact ⟨_, rfl⟩
      · exact ⟨_, rfl⟩
    obtain ⟨w, hw⟩ := hsome
    have hsame := setup1_same hw
    rw [hfs, hw] at h3
    rw [← Bool.not_eq_true, h3]
    have : (i.in4, i.in6) = (w.in4, w.in6) := by
      have i4 : i.in4 = k.in4 := by rw [← z.1, ← e1]
      have i6 : i.in6 = k.in6 := by rw [← z.2.1, ← e1]
      rw [hsame.1, hsame.2.1, y.1, y.2.1, m4, m6, i4, i6, k4, k6]
    simp only [Option.map_some, Option.getD_some]
    exact fun x => x this
  · have hno : ∀ a, ¬ Listed ifname l i.name a := fun a ha => hx ⟨a, ha⟩
    rw [scan_unlisted _ _ _ _ hno] at hf
    cases hk : find (sysInit ifname (some l) t) i.name with
    | none => rw [hk] at hf; cases hf
    | some k =>
      rw [hk] at hf
      have hset := (Reach.scan ifname (some l) ht hl).settled k (List.mem_of_find?_eq_some hk)
      have : sweep1 (mark1 k) = mark1 k := by simp [sweep1, mark1]
      simp only [Option.map_some, this] at hf
      injection hf with hf
      rw [← hf]
      exact hset.1

/-- **C50.** An interface that has no address any more is marked as not in use
but not flagged, so `setup_iface` never gets to free it: it stays in the table,
and what was published for it is not withdrawn. -/
theorem C50_vanished (ifname : Option Bytes) (l : List Ifa) (t : List Iface) (ht : Reach t) (i : Iface)
    (hi : i ∈ t) (h : ∀ a, ¬ Listed ifname l i.name a) :
    ∃ j, find (sysInit ifname (some l) t) i.name = some j ∧ j.unused = true ∧ j.changed = false ∧
      j.conf = i.conf := by
  have hd := ht.distinct
  have hc := (ht.settled i hi).1
  have e : sweep1 (mark1 i) = mark1 i := by simp [sweep1, mark1]
  refine ⟨mark1 i, ?_, rfl, hc, rfl⟩
  rw [find_sysInit _ _ _ _ hd, scan_unlisted _ _ _ _ h, hd.find hi]
  simp only [Option.map_some, e, Option.bind_some]
  have : (mark1 i).changed = false := hc
  simp [setup1, this]

/-- A new interface is flagged; a scan with one more, worse address flags
nothing; one without the chosen address flags it again. -/
def later (l : List Ifa) : List Iface := scan none (some l) (sysInit none (some sampleList) [])

example : (later (sampleList ++ [⟨[0x65], false, true, true, some (.v4 0x0A000002)⟩])).map (·.changed) = [false] ∧
    (later (sampleList.eraseIdx 1)).map (·.changed) = [true] ∧
    (later []).map (fun i => (i.changed, i.unused)) = [(false, true)] := by decide +kernel

theorem sample_proper : AllProper (some sampleList) := by
  rintro l ⟨⟩ e he a ha
  simp only [sampleList, List.mem_cons, List.not_mem_nil, or_false] at he
  rcases he with rfl | rfl | rfl | rfl | rfl | rfl <;> cases ha <;> simp [Proper]

example : Reach (sysInit none (some sampleList) []) ∧ AllProper (some sampleList) ∧
    (sysInit none (some sampleList) []).map (·.conf) = [some (0x0A000001, 0x20010DB8000000000000000000000001)] :=
  ⟨.scan _ _ .start sample_proper, sample_proper, by decide +kernel⟩

end Mdns.Iface
