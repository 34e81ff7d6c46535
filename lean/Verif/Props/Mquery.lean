import Verif.Model.Mquery
import Verif.Lemmas.Util

/-!
# C54: the device tables of mquery
-/

namespace Mdns.Mquery

open Mdns.CLib

/-! ### Specification -/

/-- The text of the address an answer tells about the host `n`, if any. -/
def tells (np : Ntop) (n : Bytes) (a : Answer) : Option Bytes :=
  if a.name = n ∧ a.ttl ≠ 0 then
    if a.type = 1 then some (np.v4 a.ip) else if a.type = 28 then some (np.v6 a.ip6) else none
  else none

/-- The addresses told about a host, in order. -/
def told (np : Ntop) (n : Bytes) (as : List (Answer × Bool)) : List Bytes := as.filterMap (fun a => tells np n a.1)

/-- Each element where it occurs first. -/
def firsts : List Bytes → List Bytes
  | [] => []
  | x :: l => x :: (firsts l).filter (· ≠ x)

/-- An SRV answer for the instance `n`: host and port. -/
def serves (n : Bytes) (a : Answer) : Option (Bytes × Nat) :=
  match a.rdname with
  | some rd => if a.name = n ∧ a.ttl ≠ 0 ∧ a.type = 33 ∧ rd ≠ [] then some (rd, a.port) else none
  | none => none

/-- An answer that makes the instance `n` known: a PTR answer from a service type,
an SRV answer with a host or a TXT answer with data. -/
def Mentions (n : Bytes) (a : Answer × Bool) : Prop :=
  a.1.ttl ≠ 0 ∧
    ((a.1.type = 12 ∧ a.2 = true ∧ a.1.rdname = some n ∧ n ≠ []) ∨
     (a.1.type = 33 ∧ a.1.name = n ∧ ∃ rd, a.1.rdname = some rd ∧ rd ≠ []) ∨
     (a.1.type = 16 ∧ a.1.name = n ∧ ∃ b, a.1.rdata = some b ∧ b ≠ []))

/-- The names fit in the buffers (255 characters). -/
def Short (a : Answer × Bool) : Prop :=
  a.1.name.length ≤ 255 ∧ ∀ rd, a.1.rdname = some rd → rd.length ≤ 255

/-! ### Tables with a key -/

section
variable {α : Type} (key : α → Bytes)

theorem find_modify (l : List α) (n m : Bytes) (f : α → α) (hf : ∀ x, key (f x) = key x) (i : Nat)
    (hi : l.findIdx? (key · == n) = some i) :
    (l.modify i f).find? (key · == m) = if m = n then (l.find? (key · == m)).map f else l.find? (key · == m) := by
  induction l generalizing i with
  | nil => simp at hi
  | cons x l ih =>
    rw [List.findIdx?_cons] at hi
    by_cases hx : key x = n
    · have h0 : i = 0 := by simpa [hx, eq_comm] using hi
      subst h0
      rw [List.modify_zero_cons, List.find?_cons, List.find?_cons, hf]
      by_cases hm : m = n
      · subst hm; simp [hx]
      · have : (key x == m) = false := by rw [hx]; simpa using fun e => hm e.symm
        simp [this, hm]
    · have hx' : (key x == n) = false := by simpa using hx
      rw [hx'] at hi
      cases hj : l.findIdx? (key · == n) with
      | none => simp [hj] at hi
      | some j =>
        simp [hj] at hi
        subst hi
        rw [List.modify_succ_cons, List.find?_cons, List.find?_cons, ih j hj]
        by_cases hm : m = n
        · subst hm; simp [hx']
        · simp [hm]

theorem modify_keys (l : List α) (f : α → α) (hf : ∀ x, key (f x) = key x) (i : Nat) :
    (l.modify i f).map key = l.map key := by
  induction l generalizing i with
  | nil => simp
  | cons x l ih =>
    cases i with
    | zero => simp [hf]
    | succ i => simp [ih]

theorem find_with (l : List α) (n m : Bytes) (f : α → α) (new : α) (hf : ∀ x, key (f x) = key x) (hn : key new = n) :
    (match l.findIdx? (key · == n) with
      | some i => l.modify i f
      | none => f new :: l).find? (key · == m) =
    if m = n then some (f ((l.find? (key · == n)).getD new)) else l.find? (key · == m) := by
  cases hi : l.findIdx? (key · == n) with
  | none =>
    have hnone : l.find? (key · == n) = none := by
      rw [List.find?_eq_none]
      intro x hx
      have := List.findIdx?_eq_none_iff.1 hi x hx
      rw [this]; decide
    dsimp only
    rw [List.find?_cons, hf, hn]
    by_cases hm : m = n
    · subst hm; simp [hnone]
    · have : (n == m) = false := by simpa using fun e => hm e.symm
      simp [this, hm]
  | some i =>
    dsimp only
    rw [find_modify key l n m f hf i hi]
    by_cases hm : m = n
    · subst hm
      have : ∃ x, l.find? (key · == m) = some x := by
        cases hx : l.find? (key · == m) with
        | some x => exact ⟨x, rfl⟩
        | none =>
          rw [List.find?_eq_none] at hx
          have : l.findIdx? (key · == m) = none := List.findIdx?_eq_none_iff.2 (fun x h => by simpa using hx x h)
          rw [this] at hi; cases hi
      obtain ⟨x, hx⟩ := this
      simp [hx]
    · simp [hm]

theorem keys_with (l : List α) (n : Bytes) (f : α → α) (new : α) (hf : ∀ x, key (f x) = key x) (hn : key new = n)
    (h : (l.map key).Nodup) :
    ((match l.findIdx? (key · == n) with
      | some i => l.modify i f
      | none => f new :: l).map key).Nodup := by
  cases hi : l.findIdx? (key · == n) with
  | none =>
    dsimp only
    rw [List.map_cons, List.nodup_cons, hf, hn]
    refine ⟨?_, h⟩
    intro hm
    obtain ⟨x, hx, e⟩ := List.mem_map.1 hm
    have := List.findIdx?_eq_none_iff.1 hi x hx
    simp [e] at this
  | some i =>
    dsimp only
    rw [modify_keys key l f hf]; exact h

theorem find_of_mem (l : List α) (h : (l.map key).Nodup) (x : α) (hx : x ∈ l) :
    l.find? (key · == key x) = some x := by
  induction l with
  | nil => cases hx
  | cons y l ih =>
    rw [List.map_cons, List.nodup_cons] at h
    rw [List.find?_cons]
    rcases List.mem_cons.1 hx with rfl | hx
    · simp
    · have : (key y == key x) = false := by
        simp only [beq_eq_false_iff_ne]
        intro e
        exact h.1 (e ▸ List.mem_map.2 ⟨x, hx, rfl⟩)
      rw [this]; exact ih h.2 hx

end

/-! ### Devices -/

theorem short_copy (n : Bytes) (h : n.length ≤ 255) : strlcpy n 256 = n :=
  List.take_of_length_le (by omega)

theorem addAddr_key (x : Bytes) (d : Dev) : (addAddr x d).hostname = d.hostname := by
  unfold addAddr; (repeat' split) <;> rfl

/-- What an answer does to the device of a name. -/
def devStep (np : Ntop) (n : Bytes) (o : Option Dev) (a : Answer × Bool) : Option Dev :=
  match tells np n a.1 with
  | some x => some (addAddr x (o.getD { hostname := n }))
  | none => o

theorem withDev_find (l : List Dev) (n m x : Bytes) (hs : n.length ≤ 255) :
    (withDev l n (addAddr x)).find? (·.hostname == m) =
      if m = n then some (addAddr x ((l.find? (·.hostname == n)).getD { hostname := n }))
      else l.find? (·.hostname == m) := by
  have e : withDev l n (addAddr x) = match l.findIdx? (·.hostname == n) with
      | some i => l.modify i (addAddr x)
      | none => addAddr x { hostname := n } :: l := by
    unfold withDev; rw [short_copy n hs]
    cases l.findIdx? (·.hostname == n) <;> rfl
  rw [e]
  exact find_with Dev.hostname l n m (addAddr x) { hostname := n } (addAddr_key x) rfl

theorem withDev_keys (l : List Dev) (n x : Bytes) (hs : n.length ≤ 255) (h : (l.map (·.hostname)).Nodup) :
    ((withDev l n (addAddr x)).map (·.hostname)).Nodup := by
  have e : withDev l n (addAddr x) = match l.findIdx? (·.hostname == n) with
      | some i => l.modify i (addAddr x)
      | none => addAddr x { hostname := n } :: l := by
    unfold withDev; rw [short_copy n hs]
    cases l.findIdx? (·.hostname == n) <;> rfl
  rw [e]
  exact keys_with Dev.hostname l n (addAddr x) { hostname := n } (addAddr_key x) rfl h

theorem ansDev_devices (np : Ntop) (t : Tables) (a : Answer × Bool) :
    (ansDev np t a.1 a.2).devices =
      if a.1.ttl ≠ 0 ∧ a.1.type = 1 then withDev t.devices a.1.name (addAddr (np.v4 a.1.ip))
      else if a.1.ttl ≠ 0 ∧ a.1.type = 28 then withDev t.devices a.1.name (addAddr (np.v6 a.1.ip6))
      else t.devices := by
  unfold ansDev
  by_cases h0 : a.1.ttl = 0
  · simp [h0]
  · simp only [h0, if_false, ne_eq, not_false_eq_true, true_and]
    by_cases h1 : a.1.type = 12
    · simp only [h1, if_true]; (repeat' split) <;> first | rfl | omega
    · by_cases h2 : a.1.type = 33
      · simp only [h2, if_true]; (repeat' split) <;> first | rfl | omega
      · by_cases h3 : a.1.type = 16
        · simp only [h3, if_true]; (repeat' split) <;> first | rfl | omega
        · simp only [h1, h2, h3, if_false]
          (repeat' split) <;> rfl

theorem dev_step (np : Ntop) (t : Tables) (a : Answer × Bool) (hs : Short a) (m : Bytes)
    (hk : (t.devices.map (·.hostname)).Nodup) :
    (ansDev np t a.1 a.2).devices.find? (·.hostname == m) =
      devStep np m (t.devices.find? (·.hostname == m)) a ∧
    ((ansDev np t a.1 a.2).devices.map (·.hostname)).Nodup := by
  rw [ansDev_devices]
  unfold devStep tells
  by_cases h0 : a.1.ttl = 0
  · simp [h0, hk]
  · by_cases h1 : a.1.type = 1
    · simp only [h0, h1, ne_eq, not_false_eq_true, and_self, if_true, and_true]
      refine ⟨?_, withDev_keys _ _ _ hs.1 hk⟩
      rw [withDev_find _ _ _ _ hs.1]
      by_cases hm : a.1.name = m
      · subst hm; simp
      · have : ¬ m = a.1.name := fun e => hm e.symm
        simp [hm, this]
    · by_cases h2 : a.1.type = 28
      · have h28 : ¬ (28 = 1) := by omega
        simp only [h0, h2, h28, ne_eq, not_false_eq_true, and_false, if_false, and_self, if_true, and_true]
        refine ⟨?_, withDev_keys _ _ _ hs.1 hk⟩
        rw [withDev_find _ _ _ _ hs.1]
        by_cases hm : a.1.name = m
        · subst hm; simp
        · have : ¬ m = a.1.name := fun e => hm e.symm
          simp [hm, this]
      · simp [h0, h1, h2, hk]

theorem dev_run (np : Ntop) (as : List (Answer × Bool)) (hs : ∀ a ∈ as, Short a) (t : Tables) (m : Bytes)
    (hk : (t.devices.map (·.hostname)).Nodup) :
    (run np as t).devices.find? (·.hostname == m) =
      as.foldl (devStep np m) (t.devices.find? (·.hostname == m)) ∧
    ((run np as t).devices.map (·.hostname)).Nodup := by
  induction as generalizing t with
  | nil => exact ⟨rfl, hk⟩
  | cons a as ih =>
    have h := dev_step np t a (hs a (by simp)) m hk
    have h2 := ih (fun b hb => hs b (by simp [hb])) (ansDev np t a.1 a.2) h.2
    rw [h.1] at h2
    exact h2

/-- Appending at the end, as the code does, gives the first occurrences. -/
def snoc (acc : List Bytes) (x : Bytes) : List Bytes := if acc.contains x then acc else acc ++ [x]

theorem foldl_snoc (l acc : List Bytes) :
    l.foldl snoc acc = acc ++ (firsts l).filter (fun x => !acc.contains x) := by
  induction l generalizing acc with
  | nil => simp [firsts]
  | cons x l ih =>
    rw [List.foldl_cons, ih, firsts]
    unfold snoc
    by_cases h : acc.contains x = true
    · rw [if_pos h, List.filter_cons, h]
      simp only [Bool.not_true, Bool.false_eq_true, if_false, List.filter_filter]
      congr 1
      apply List.filter_congr
      intro y _
      by_cases hy : y = x
      · subst hy; simp at h; simp [h]
      · simp [hy]
    · have hb : acc.contains x = false := by simpa using h
      rw [if_neg h, List.filter_cons, hb]
      simp only [Bool.not_false, if_true, List.filter_filter, List.append_assoc, List.cons_append, List.nil_append]
      congr 2
      apply List.filter_congr
      intro y _
      simp [Bool.and_comm, eq_comm]

theorem firsts_eq (l : List Bytes) : l.foldl snoc [] = firsts l := by
  rw [foldl_snoc]; simp

theorem addAddr_snoc (acc : List Bytes) (x : Bytes) (hx : x.length ≤ 45) (n : Bytes) :
    addAddr x { hostname := n, addrs := acc.take 8 } = { hostname := n, addrs := (snoc acc x).take 8 } := by
  unfold addAddr snoc
  have hc : strlcpy x 46 = x := List.take_of_length_le (by omega)
  by_cases h : acc.contains x = true
  · simp only [h, if_true]
    by_cases h' : (acc.take 8).contains x = true
    · rw [if_pos h']
    · rw [if_neg h', if_neg]
      intro hl
      have : acc.take 8 = acc := List.take_of_length_le (by simp at hl; omega)
      rw [this] at h'; exact h' h
  · have h' : ¬ (acc.take 8).contains x = true := by
      simp only [List.contains_iff_mem] at h ⊢
      exact fun hm => h (List.mem_of_mem_take hm)
    rw [if_neg h, if_neg h']
    simp only [hc]
    split
    · rename_i hl
      have hl' : acc.length < 8 := by simp at hl; omega
      rw [List.take_of_length_le (l := acc) (by omega), List.take_of_length_le (by simp; omega)]
    · rename_i hl
      have hl' : 8 ≤ acc.length := by simp at hl; omega
      rw [List.take_append_of_le_length hl']

theorem tells_length (np : Ntop) (n : Bytes) (a : Answer) (x : Bytes) (h : tells np n a = some x) :
    x.length ≤ 45 := by
  unfold tells at h
  split at h
  · split at h
    · cases h; exact np.len4 _
    · split at h
      · cases h; exact np.len6 _
      · cases h
  · cases h

theorem dev_fold (np : Ntop) (n : Bytes) (as : List (Answer × Bool)) (acc : List Bytes) :
    as.foldl (devStep np n) (if acc = [] then none else some { hostname := n, addrs := acc.take 8 }) =
      if (told np n as).foldl snoc acc = [] then none
      else some { hostname := n, addrs := ((told np n as).foldl snoc acc).take 8 } := by
  induction as generalizing acc with
  | nil => rfl
  | cons a as ih =>
    rw [List.foldl_cons]
    unfold told
    rw [List.filterMap_cons]
    cases ht : tells np n a.1 with
    | none =>
      have : devStep np n (if acc = [] then none else some { hostname := n, addrs := acc.take 8 }) a =
          (if acc = [] then none else some { hostname := n, addrs := acc.take 8 }) := by
        unfold devStep; rw [ht]
      rw [this]
      exact ih acc
    | some x =>
      have hx := tells_length np n a.1 x ht
      have hsn : snoc acc x ≠ [] := by
        unfold snoc
        split
        · rename_i h; intro e; rw [e] at h; simp at h
        · simp
      have : devStep np n (if acc = [] then none else some { hostname := n, addrs := acc.take 8 }) a =
          (if snoc acc x = [] then none else some { hostname := n, addrs := (snoc acc x).take 8 }) := by
        unfold devStep; rw [ht]
        rw [if_neg hsn]
        by_cases ha : acc = []
        · subst ha
          have := addAddr_snoc [] x hx n
          simpa using this
        · rw [if_neg ha]
          simp only [Option.getD_some]
          rw [addAddr_snoc acc x hx n]
      rw [this]
      exact ih (snoc acc x)

/-- **C54.** The device table has one entry for every host an address was told of
and no others, with the first eight different addresses in the order in which
they were told; for all sequences of answers with names of at most 255
characters. -/
theorem C54_devices_partial (np : Ntop) (as : List (Answer × Bool)) (hs : ∀ a ∈ as, Short a) :
    ((run np as {}).devices.map (·.hostname)).Nodup ∧
    ∀ d : Dev, d ∈ (run np as {}).devices ↔
      told np d.hostname as ≠ [] ∧ d.addrs = (firsts (told np d.hostname as)).take 8 := by
  have hk := fun m => dev_run np as hs {} m List.nodup_nil
  have nodup := (hk []).2
  refine ⟨nodup, fun d => ?_⟩
  have hfold := dev_fold np d.hostname as []
  simp only [if_true] at hfold
  have hfind := (hk d.hostname).1
  have e0 : ({} : Tables).devices.find? (·.hostname == d.hostname) = none := rfl
  rw [e0, hfold, firsts_eq] at hfind
  have hne : firsts (told np d.hostname as) = [] ↔ told np d.hostname as = [] := by
    cases told np d.hostname as <;> simp [firsts]
  constructor
  · intro hd
    have := find_of_mem Dev.hostname _ nodup d hd
    rw [hfind] at this
    split at this
    · cases this
    · rename_i h
      injection this with this
      exact ⟨fun e => h (hne.2 e), by rw [← this]⟩
  · rintro ⟨h1, h2⟩
    rw [if_neg (fun e => h1 (hne.1 e)), ← h2] at hfind
    exact List.mem_of_find?_eq_some hfind

theorem firsts_nodup (l : List Bytes) : (firsts l).Nodup := by
  induction l with
  | nil => exact List.nodup_nil
  | cons x l ih =>
    rw [firsts, List.nodup_cons]
    exact ⟨by simp, ih.filter _⟩

/-- **C54.** So every device has at most eight addresses, all different. -/
theorem C54_addresses_partial (np : Ntop) (as : List (Answer × Bool)) (hs : ∀ a ∈ as, Short a)
    (d : Dev) (hd : d ∈ (run np as {}).devices) : d.addrs.length ≤ 8 ∧ d.addrs.Nodup := by
  have := ((C54_devices_partial np as hs).2 d).1 hd
  rw [this.2]
  exact ⟨by simp; omega, (firsts_nodup _).take⟩

/-! ### Instances -/

/-- What an answer does to the instance of a name: the change of the entry, if any. -/
def instChange (n : Bytes) (a : Answer × Bool) : Option (Inst → Inst) :=
  if a.1.ttl = 0 then none
  else if a.1.type = 12 then
    if a.2 = true ∧ a.1.rdname = some n ∧ n ≠ [] then some id else none
  else if a.1.type = 33 then
    match a.1.rdname with
    | none => none
    | some rd => if a.1.name = n ∧ rd ≠ [] then some (fun i =>
        if i.hostname.isEmpty then { i with hostname := strlcpy rd 256, port := a.1.port } else i) else none
  else if a.1.type = 16 then
    match a.1.rdata with
    | none => none
    | some b =>
      if a.1.name = n ∧ b ≠ [] then
        match SdTxt.txt2sd b b.length with
        | .ok (some x) => some (setTxt x)
        | _ => some id
      else none
  else none

theorem setTxt_same (x : Xht.Table) (i : Inst) :
    (setTxt x i).iname = i.iname ∧ (setTxt x i).hostname = i.hostname ∧ (setTxt x i).port = i.port := by
  unfold setTxt
  dsimp only
  (repeat' split) <;> exact ⟨rfl, rfl, rfl⟩

/-- What an answer does to the instance of a name. -/
def instStep (n : Bytes) (o : Option Inst) (a : Answer × Bool) : Option Inst :=
  match instChange n a with
  | some f => some (f (o.getD { iname := n }))
  | none => o

theorem withInst_eq (l : List Inst) (n : Bytes) (f : Inst → Inst) (hs : n.length ≤ 255) :
    withInst l n f = match l.findIdx? (·.iname == n) with
      | some i => l.modify i f
      | none => f { iname := n } :: l := by
  unfold withInst; rw [short_copy n hs]
  cases l.findIdx? (·.iname == n) <;> rfl

theorem inst_with (l : List Inst) (n m : Bytes) (f : Inst → Inst) (hf : ∀ i, (f i).iname = i.iname)
    (hs : n.length ≤ 255) (hk : (l.map (·.iname)).Nodup) :
    (withInst l n f).find? (·.iname == m) =
      (if m = n then some (f ((l.find? (·.iname == m)).getD { iname := m })) else l.find? (·.iname == m)) ∧
    ((withInst l n f).map (·.iname)).Nodup := by
  rw [withInst_eq l n f hs]
  refine ⟨?_, keys_with Inst.iname l n f { iname := n } hf rfl hk⟩
  rw [find_with Inst.iname l n m f { iname := n } hf rfl]
  by_cases hm : m = n
  · subst hm; rfl
  · simp [hm]

theorem inst_step (np : Ntop) (t : Tables) (a : Answer × Bool) (hs : Short a) (m : Bytes)
    (hk : (t.instances.map (·.iname)).Nodup) :
    (ansDev np t a.1 a.2).instances.find? (·.iname == m) =
      instStep m (t.instances.find? (·.iname == m)) a ∧
    ((ansDev np t a.1 a.2).instances.map (·.iname)).Nodup := by
  unfold ansDev instStep instChange
  by_cases h0 : a.1.ttl = 0
  · simp [h0, hk]
  rw [if_neg h0, if_neg h0]
  by_cases h1 : a.1.type = 12
  · rw [if_pos h1, if_pos h1]
    cases hr : a.1.rdname with
    | none => simp [hk]
    | some rd =>
      by_cases he : rd = []
      · subst he
        have : ¬ (a.2 = true ∧ some ([] : Bytes) = some m ∧ m ≠ []) := by
          rintro ⟨_, h, h'⟩; injection h with h; exact h' h.symm
        simp only [List.isEmpty_nil, if_true, if_neg this]
        exact ⟨trivial, hk⟩
      · have he' : rd.isEmpty = false := by cases rd <;> simp at he ⊢
        cases ha : a.2 with
        | false => simp [he', hk]
        | true =>
          have h := inst_with t.instances rd m id (fun _ => rfl) (hs.2 rd hr) hk
          simp only [he', Bool.false_eq_true, if_false, Bool.not_true, true_and]
          refine ⟨?_, h.2⟩
          rw [h.1]
          by_cases hm : m = rd
          · subst hm; simp [he]
          · have : ¬ (some rd = some m ∧ m ≠ []) := by
              rintro ⟨h, _⟩; injection h with h; exact hm h.symm
            rw [if_neg hm, if_neg this]
  · rw [if_neg h1, if_neg h1]
    by_cases h2 : a.1.type = 33
    · rw [if_pos h2, if_pos h2]
      cases hr : a.1.rdname with
      | none => simp [hk]
      | some rd =>
        by_cases he : rd = []
        · subst he; simp [hk]
        · have he' : rd.isEmpty = false := by cases rd <;> simp at he ⊢
          have h := inst_with t.instances a.1.name m (fun i =>
            if i.hostname.isEmpty then { i with hostname := strlcpy rd 256, port := a.1.port } else i)
            (fun i => by split <;> rfl) hs.1 hk
          simp only [he', Bool.false_eq_true, if_false]
          refine ⟨?_, h.2⟩
          rw [h.1]
          by_cases hm : m = a.1.name
          · subst hm; simp [he]
          · have : ¬ (a.1.name = m ∧ rd ≠ []) := fun h => hm h.1.symm
            rw [if_neg hm, if_neg this]
    · rw [if_neg h2, if_neg h2]
      by_cases h3 : a.1.type = 16
      · rw [if_pos h3, if_pos h3]
        cases hr : a.1.rdata with
        | none => simp [hk]
        | some b =>
          by_cases he : b = []
          · subst he; simp [hk]
          · have he' : ¬ b.length = 0 := by
              intro h; exact he (List.length_eq_zero_iff.1 h)
            dsimp only
            rw [if_neg he']
            have key : ∀ f : Inst → Inst, (∀ i, (f i).iname = i.iname) →
                (withInst t.instances a.1.name f).find? (·.iname == m) =
                  (match (if a.1.name = m ∧ b ≠ [] then some f else none : Option (Inst → Inst)) with
                  | some f => some (f ((t.instances.find? (·.iname == m)).getD { iname := m }))
                  | none => t.instances.find? (·.iname == m)) ∧
                ((withInst t.instances a.1.name f).map (·.iname)).Nodup := by
              intro f hf
              have h := inst_with t.instances a.1.name m f hf hs.1 hk
              refine ⟨?_, h.2⟩
              rw [h.1]
              by_cases hm : m = a.1.name
              · subst hm; simp [he]
              · have : ¬ (a.1.name = m ∧ b ≠ []) := fun h => hm h.1.symm
                rw [if_neg hm, if_neg this]
            cases ht : SdTxt.txt2sd b b.length with
            | ok o =>
              cases o with
              | none => exact key id (fun _ => rfl)
              | some x => exact key (setTxt x) (fun i => (setTxt_same x i).1)
            | _ => exact key id (fun _ => rfl)
      · rw [if_neg h3, if_neg h3]
        dsimp only
        by_cases h4 : a.1.type = 1
        · simp only [h4, if_true]; exact ⟨trivial, hk⟩
        · by_cases h5 : a.1.type = 28
          · rw [if_neg h4, if_pos h5]; exact ⟨rfl, hk⟩
          · rw [if_neg h4, if_neg h5]; exact ⟨rfl, hk⟩

theorem inst_run (np : Ntop) (as : List (Answer × Bool)) (hs : ∀ a ∈ as, Short a) (t : Tables) (m : Bytes)
    (hk : (t.instances.map (·.iname)).Nodup) :
    (run np as t).instances.find? (·.iname == m) =
      as.foldl (instStep m) (t.instances.find? (·.iname == m)) ∧
    ((run np as t).instances.map (·.iname)).Nodup := by
  induction as generalizing t with
  | nil => exact ⟨rfl, hk⟩
  | cons a as ih =>
    have h := inst_step np t a (hs a (by simp)) m hk
    have h2 := ih (fun b hb => hs b (by simp [hb])) (ansDev np t a.1 a.2) h.2
    rw [h.1] at h2
    exact h2

/-- The host and port an instance gets: those of the first SRV answer. -/
def served (n : Bytes) (as : List (Answer × Bool)) : Option (Bytes × Nat) := (as.filterMap (fun a => serves n a.1)).head?

theorem mentions_iff (n : Bytes) (a : Answer × Bool) : Mentions n a ↔ (instChange n a).isSome = true := by
  unfold Mentions instChange
  by_cases h0 : a.1.ttl = 0
  · simp [h0]
  rw [if_neg h0]
  by_cases h1 : a.1.type = 12
  · simp [h0, h1]
  · by_cases h2 : a.1.type = 33
    · cases hr : a.1.rdname with
      | none => simp [h2]
      | some rd =>
        by_cases h : a.1.name = n ∧ rd ≠ []
        · simp [h0, h2, h]
        · simp only [h2, h]
          simp
          exact fun _ e => Classical.byContradiction (fun e' => h ⟨e, e'⟩)
    · by_cases h3 : a.1.type = 16
      · cases hr : a.1.rdata with
        | none => simp [h3]
        | some b =>
          by_cases h : a.1.name = n ∧ b ≠ []
          · simp [h0, h3, h]
            (repeat' split) <;> rfl
          · simp only [h3, h]
            simp
            exact fun _ e => Classical.byContradiction (fun e' => h ⟨e, e'⟩)
      · simp [h1, h2, h3]

/-- An SRV answer sets host and port if there are none, and nothing else does. -/
theorem instChange_served (n : Bytes) (a : Answer × Bool) (hs : Short a) (f : Inst → Inst)
    (h : instChange n a = some f) (i : Inst) :
    (f i).iname = i.iname ∧
    match serves n a.1 with
    | some (rd, p) => if i.hostname = [] then (f i).hostname = rd ∧ (f i).port = p
        else (f i).hostname = i.hostname ∧ (f i).port = i.port
    | none => (f i).hostname = i.hostname ∧ (f i).port = i.port := by
  unfold instChange at h
  unfold serves
  by_cases h0 : a.1.ttl = 0
  · simp [h0] at h
  rw [if_neg h0] at h
  by_cases h1 : a.1.type = 12
  · rw [if_pos h1] at h
    split at h
    · injection h with h; subst h
      refine ⟨rfl, ?_⟩
      cases a.1.rdname <;> simp [h1]
    · cases h
  · rw [if_neg h1] at h
    by_cases h2 : a.1.type = 33
    · rw [if_pos h2] at h
      cases hr : a.1.rdname with
      | none => rw [hr] at h; cases h
      | some rd =>
        rw [hr] at h
        dsimp only at h
        split at h
        · rename_i hc
          injection h with h; subst h
          dsimp only
          have hcc : a.1.name = n ∧ a.1.ttl ≠ 0 ∧ a.1.type = 33 ∧ rd ≠ [] := ⟨hc.1, h0, h2, hc.2⟩
          rw [if_pos hcc, short_copy rd (hs.2 rd hr)]
          by_cases hh : i.hostname = []
          · simp [hh]
          · simp [hh]
        · cases h
    · rw [if_neg h2] at h
      by_cases h3 : a.1.type = 16
      · rw [if_pos h3] at h
        have hnone : ∀ o : Option Bytes, (match o with
            | some rd => if a.1.name = n ∧ a.1.ttl ≠ 0 ∧ a.1.type = 33 ∧ rd ≠ [] then some (rd, a.1.port) else none
            | none => none) = none := by
          intro o; cases o <;> simp [h2]
        rw [hnone]
        dsimp only
        split at h
        · cases h
        · split at h
          · split at h <;> (injection h with h; subst h)
            · rename_i x _; exact setTxt_same x i
            · exact ⟨rfl, rfl, rfl⟩
          · cases h
      · rw [if_neg h3] at h; cases h

theorem serves_mentions (n : Bytes) (a : Answer × Bool) (x : Bytes × Nat) (h : serves n a.1 = some x) :
    Mentions n a ∧ x.1 ≠ [] := by
  unfold serves at h
  split at h
  · rename_i rd hr
    split at h
    · rename_i hc
      injection h with h; subst h
      exact ⟨⟨hc.2.1, Or.inr (Or.inl ⟨hc.2.2.1, hc.1, rd, hr, hc.2.2.2⟩)⟩, hc.2.2.2⟩
    · cases h
  · cases h

theorem inst_fold (n : Bytes) (as : List (Answer × Bool)) (hs : ∀ a ∈ as, Short a) (o : Option Inst)
    (ho : ∀ i, o = some i → i.iname = n) :
    let r := as.foldl (instStep n) o
    (r.isSome = true ↔ o.isSome = true ∨ ∃ a ∈ as, Mentions n a) ∧
    ∀ i, r = some i → i.iname = n ∧
      (i.hostname, i.port) = (if (o.getD { iname := n }).hostname = [] then
        (served n as).getD ((o.getD { iname := n }).hostname, (o.getD { iname := n }).port)
        else ((o.getD { iname := n }).hostname, (o.getD { iname := n }).port)) := by
  induction as generalizing o with
  | nil =>
    refine ⟨by simp, ?_⟩
    intro i hi
    have hi : o = some i := hi
    subst hi
    refine ⟨ho i rfl, ?_⟩
    simp [served]
  | cons a as ih =>
    have hsa := hs a (by simp)
    have hrest := fun b hb => hs b (List.mem_cons_of_mem _ hb)
    simp only [List.foldl_cons]
    cases hc : instChange n a with
    | none =>
      have hm : ¬ Mentions n a := by rw [mentions_iff, hc]; simp
      have hst : instStep n o a = o := by unfold instStep; rw [hc]
      have hsv : serves n a.1 = none := by
        cases h : serves n a.1 with
        | none => rfl
        | some x => exact absurd (serves_mentions n a x h).1 hm
      rw [hst]
      have h := ih hrest o ho
      refine ⟨?_, ?_⟩
      · rw [h.1]; simp [hm]
      · have : served n (a :: as) = served n as := by unfold served; rw [List.filterMap_cons, hsv]
        rw [this]; exact h.2
    | some f =>
      have hm : Mentions n a := by rw [mentions_iff, hc]; rfl
      have hst : instStep n o a = some (f (o.getD { iname := n })) := by unfold instStep; rw [hc]
      have hch := instChange_served n a hsa f hc (o.getD { iname := n })
      have hname : (f (o.getD { iname := n })).iname = n := by
        rw [hch.1]; cases o with
        | none => rfl
        | some i => exact ho i rfl
      rw [hst]
      have h := ih hrest (some (f (o.getD { iname := n })))
        (by intro i hi; injection hi with hi; rw [← hi]; exact hname)
      refine ⟨?_, ?_⟩
      · rw [h.1]; simp [hm]
      · intro i hi
        refine ⟨(h.2 i hi).1, ?_⟩
        rw [(h.2 i hi).2]
        simp only [Option.getD_some]
        cases hsv : serves n a.1 with
        | none =>
          rw [hsv] at hch
          dsimp only at hch
          have : served n (a :: as) = served n as := by unfold served; rw [List.filterMap_cons, hsv]
          rw [this, hch.2.1, hch.2.2]
        | some x =>
          rw [hsv] at hch
          obtain ⟨rd, p⟩ := x
          have hrd := (serves_mentions n a _ hsv).2
          have : served n (a :: as) = some (rd, p) := by unfold served; rw [List.filterMap_cons, hsv]; rfl
          dsimp only at hch hrd
          rw [this]
          by_cases hh : (o.getD { iname := n }).hostname = []
          · rw [if_pos hh] at hch ⊢
            rw [hch.2.1, hch.2.2, if_neg hrd]
            rfl
          · rw [if_neg hh] at hch ⊢
            rw [hch.2.1, hch.2.2, if_neg hh]

/-- **C54.** The instance table has exactly one entry for each instance some
answer tells about, with the host and port of the first SRV answer for it; for
all sequences of answers with names of at most 255 characters. -/
theorem C54_instances_partial (np : Ntop) (as : List (Answer × Bool)) (hs : ∀ a ∈ as, Short a) :
    ((run np as {}).instances.map (·.iname)).Nodup ∧
    (∀ n, n ∈ (run np as {}).instances.map (·.iname) ↔ ∃ a ∈ as, Mentions n a) ∧
    ∀ i ∈ (run np as {}).instances, (i.hostname, i.port) = (served i.iname as).getD ([], 0) := by
  have hk := fun m => inst_run np as hs {} m List.nodup_nil
  have nodup := (hk []).2
  have e0 : ∀ m, ({} : Tables).instances.find? (·.iname == m) = none := fun _ => rfl
  refine ⟨nodup, fun n => ?_, fun i hi => ?_⟩
  · have hf := (inst_fold n as hs none (by intro i h; cases h)).1
    have := (hk n).1
    rw [e0] at this
    rw [← this] at hf
    simp only [Option.isSome_none, Bool.false_eq_true, false_or] at hf
    rw [← hf, List.find?_isSome, List.mem_map]
    simp
  · have h := find_of_mem Inst.iname _ nodup i hi
    rw [(hk i.iname).1, e0] at h
    have := ((inst_fold i.iname as hs none (by intro i h; cases h)).2 i h).2
    simpa using this

/-! ### A case, and names of 256 characters -/

/-- Addresses as texts of one letter each. -/
def sampleNtop : Ntop where
  v4 a := [a[0]]
  v6 _ := [0x3A]
  len4 _ := by simp
  len6 _ := by simp

/-- An answer with an address. -/
def addrOf (n : Bytes) (x : UInt8) : Answer × Bool := ({ name := n, type := 1, ttl := 60, ip := #v[x, 0, 0, 1] }, false)

/-- An SRV answer. -/
def srvOf (n host : Bytes) (port : Nat) : Answer × Bool :=
  ({ name := n, type := 33, ttl := 60, rdname := some host, port := port }, false)

example : (∀ a ∈ [addrOf [0x61] 1, addrOf [0x62] 7, addrOf [0x61] 2, addrOf [0x61] 1], Short a) ∧
    (run sampleNtop [addrOf [0x61] 1, addrOf [0x62] 7, addrOf [0x61] 2, addrOf [0x61] 1] {}).devices =
      [{ hostname := [0x62], addrs := [[7]] }, { hostname := [0x61], addrs := [[1], [2]] }] := by
  refine ⟨?_, by decide +kernel⟩
  intro a ha
  simp [addrOf] at ha
  rcases ha with rfl | rfl | rfl | rfl <;> exact ⟨by simp, by intro _ h; cases h⟩

example : (run sampleNtop [srvOf [0x69] [0x61] 80, srvOf [0x69] [0x62] 90] {}).instances.map
    (fun i => (i.iname, i.hostname, i.port)) = [([0x69], [0x61], 80)] := by decide +kernel

/-- A name of 256 characters. -/
def longName : Bytes := List.replicate 256 0x61

/-- **C54 fails for names of 256 characters**, which a packet can have
(`C09`): the table holds the first 255, so the name is never found again and
every answer makes another entry with the same host name. -/
theorem C54_long_name_counterexample :
    (run sampleNtop [addrOf longName 1, addrOf longName 1] {}).devices.map (·.hostname) =
      [List.replicate 255 0x61, List.replicate 255 0x61] := by decide +kernel

end Mdns.Mquery
