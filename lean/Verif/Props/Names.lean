import Verif.Lemmas.Names
import Verif.Props.Builder

/-!
# C02: compressed names decode to the name that was given

The claim is false for arbitrary names (`C02_prefix_counterexample`), because
`_lmatch` follows compression pointers from the write cursor and so takes a name
for equal to the first labels of a longer one.  It is proved for names where no
ending of a later name is the beginning of a longer ending of an earlier name,
which covers all names with a common top label such as ".local.".
-/

namespace Mdns

open Spec

/-! ### Spec -/

/-- The name argument of a call, with the number of bytes the call puts before
and behind the name field. -/
def nameField : BOp → Option (Bytes × Nat × Nat)
  | .qd n _ _ => some (n, 0, 4)
  | .rr _ n _ _ _ => some (n, 0, 8)
  | .name n => some (n, 2, 0)
  | .srv _ _ _ n => some (n, 8, 0)
  | _ => none

/-- No ending of `n` is a proper beginning of an ending of `e`. -/
def NoClash (e n : List Bytes) : Prop := ∀ s t, s <:+ n → t <:+ e → s ≠ [] → s <+: t → s = t

/-! ### Reading names -/

theorem NameAt.mono {p : Bytes} {o ls e} (h : NameAt p o ls e) (q : Bytes) : NameAt (p ++ q) o ls e := by
  have key : ∀ {i : Nat} {c : UInt8}, p[i]? = some c → (p ++ q)[i]? = some c := by
    intro i c h
    have hi := (List.getElem?_eq_some_iff.1 h).1
    rw [List.getElem?_append_left hi, h]
  induction h with
  | root o h => exact .root o (key h)
  | label o l ls e h1 h2 h3 h4 _ ih =>
    refine .label o l ls e h1 h2 (key h3) ?_ ih
    intro i hi
    have := h4 i hi
    rw [List.getElem?_eq_getElem hi] at this ⊢
    exact key this
  | pointer o b0 b1 ls e h1 h2 h3 h4 _ ih => exact .pointer o b0 b1 ls e (key h1) h2 (key h3) h4 ih

theorem getElem?_of_drop {p : Bytes} {o : Nat} {a : Bytes} (h : p.drop o = a) (i : Nat) : p[o + i]? = a[i]? := by
  rw [← h, List.getElem?_drop]

theorem NameAt.run {p : Bytes} : ∀ (ls1 : List Bytes) (o : Nat) (r : Bytes) (ls2 : List Bytes) (e : Nat),
    p.drop o = encLabels ls1 ++ r → OkLabels ls1 → NameAt p (o + (encLabels ls1).length) ls2 e →
    NameAt p o (ls1 ++ ls2) e := by
  intro ls1
  induction ls1 with
  | nil => intro o r ls2 e _ _ h; simpa [encLabels] using h
  | cons l ls1 ih =>
    intro o r ls2 e hd hok h
    rw [encLabels_cons, List.cons_append, List.append_assoc] at hd
    have hl := hok l (by simp)
    refine .label o l (ls1 ++ ls2) e hl.1 hl.2 ?_ ?_ ?_
    · have := getElem?_of_drop hd 0
      simpa using this
    · intro i hi
      have := getElem?_of_drop (drop_cons_succ hd) i
      rw [this, List.getElem?_append_left hi]
    · have hd2 := drop_append_len (drop_cons_succ hd)
      apply ih _ r ls2 e hd2 (fun a ha => hok a (by simp [ha]))
      rw [encLabels_cons] at h
      have : o + 1 + l.length + (encLabels ls1).length
          = o + (UInt8.ofNat l.length :: (l ++ encLabels ls1)).length := by simp; omega
      rw [this]; exact h

theorem ptr_value (o : Nat) (h : o < 16384) :
    0xc0 ≤ ((UInt8.ofNat (o >>> 8)) ||| 0xc0).toNat ∧
    (((UInt8.ofNat (o >>> 8)) ||| 0xc0).toNat - 0xc0) * 256 + (UInt8.ofNat o).toNat = o := by
  have key : ∀ k : Fin 64, ((UInt8.ofNat k.val) ||| 0xc0).toNat = 0xc0 + k.val := by decide +kernel
  have h8 : o >>> 8 = o / 256 := by rw [Nat.shiftRight_eq_div_pow]
  have := key ⟨o >>> 8, by rw [h8]; omega⟩
  simp only at this
  rw [this, h8]
  simp only [UInt8.toNat_ofNat']
  omega

theorem NameAt.ptr {p : Bytes} {o t : Nat} {r : Bytes} {ls : List Bytes} {e : Nat}
    (hd : p.drop o = ptrBytes t ++ r) (ht : t < 16384) (hto : t < o) (h : NameAt p t ls e) :
    NameAt p o ls (o + 2) := by
  have hv := ptr_value t ht
  have h0 := getElem?_of_drop hd 0
  have h1 := getElem?_of_drop hd 1
  simp only [ptrBytes, List.cons_append, Nat.add_zero, List.getElem?_cons_zero,
    List.getElem?_cons_succ] at h0 h1
  exact .pointer o _ _ ls e h0 hv.1 h1 (by rw [hv.2]; exact hto) (by rw [hv.2]; exact h)

/-! ### Invariant -/

/-- The name decodes whatever header will be written. -/
def Decodes (pkt : Bytes) (o : Nat) (ls : List Bytes) (e : Nat) : Prop :=
  ∀ h : Bytes, h.length = 12 → NameAt (h ++ pkt.drop 12) o ls e

theorem Decodes.mono {pkt o ls e} (h : Decodes pkt o ls e) (hl : 12 ≤ pkt.length) (q : Bytes) :
    Decodes (pkt ++ q) o ls e := by
  intro hd hh
  rw [List.drop_append_of_le_length hl, ← List.append_assoc]
  exact NameAt.mono (h hd hh) q

theorem drop_hdr {pkt h : Bytes} {o : Nat} (hh : h.length = 12) (ho : 12 ≤ o) :
    (h ++ pkt.drop 12).drop o = pkt.drop o := by
  rw [List.drop_append, List.drop_eq_nil_of_le (by omega), List.nil_append, List.drop_drop]
  congr 1; omega

structure NInv (pkt : Bytes) (labels : List Nat) (used : List (List Bytes)) : Prop where
  len : 12 ≤ pkt.length
  ent : ∀ o ∈ labels, 12 ≤ o ∧ ∃ own b full e, Entry pkt o own b ∧ Decodes pkt o full e ∧
    own <+: full ∧ ∃ u ∈ used, full <:+ u

theorem NInv.mono {pkt labels used} (h : NInv pkt labels used) (q : Bytes) (used' : List (List Bytes))
    (hu : used ⊆ used') : NInv (pkt ++ q) labels used' := by
  refine ⟨by have := h.len; simp; omega, ?_⟩
  intro o ho
  obtain ⟨h12, own, b, full, e, h1, h2, h3, u, h4, h5⟩ := h.ent o ho
  exact ⟨h12, own, b, full, e, h1.append q, h2.mono h.len q, h3, u, hu h4, h5⟩

theorem NInv.table {pkt labels used} (h : NInv pkt labels used) : Table pkt labels := by
  intro o ho
  obtain ⟨_, own, b, _, _, h1, _⟩ := h.ent o ho
  exact ⟨own, b, h1⟩

theorem Table.append {pkt labels} (h : Table pkt labels) (q) : Table (pkt ++ q) labels := by
  intro o ho
  obtain ⟨own, b, he⟩ := h o ho
  exact ⟨own, b, he.append q⟩

/-- An entry determines its labels. -/
theorem Entry.own_unique {pkt o own1 b1 own2 b2} (h1 : Entry pkt o own1 b1) (h2 : Entry pkt o own2 b2) :
    own1 = own2 := by
  obtain ⟨⟨r1, e1⟩, t1, ok1, n1⟩ := h1
  obtain ⟨⟨r2, e2⟩, t2, ok2, n2⟩ := h2
  rw [e1] at e2
  clear e1 n1 n2
  have hterm : ∀ (l : Bytes) (b : UInt8), (1 ≤ l.length ∧ l.length ≤ 63) → Term b → UInt8.ofNat l.length ≠ b := by
    intro l b hl hb hc
    have := lenByte l hl
    rcases hb with rfl | hb
    · exact this.2.1 hc
    · rw [← hc, this.2.2] at hb; simp at hb
  induction own1 generalizing own2 with
  | nil =>
    cases own2 with
    | nil => rfl
    | cons k own2 =>
      rw [encLabels_cons] at e2
      simp only [encLabels, List.flatMap_nil, List.nil_append, List.cons_append, List.cons.injEq] at e2
      exact absurd e2.1.symm (hterm k b1 (ok2 k (by simp)) t1)
  | cons l own1 ih =>
    cases own2 with
    | nil =>
      rw [encLabels_cons] at e2
      simp only [encLabels, List.flatMap_nil, List.nil_append, List.cons_append, List.cons.injEq] at e2
      exact absurd e2.1 (hterm l b2 (ok1 l (by simp)) t2)
    | cons k own2 =>
      rw [encLabels_cons, encLabels_cons] at e2
      simp only [List.cons_append, List.cons.injEq, List.append_assoc] at e2
      have hlen : l.length = k.length := by
        have a := (lenByte l (ok1 l (by simp))).1
        have b := (lenByte k (ok2 k (by simp))).1
        rw [← a, e2.1, b]
      have hlk := List.append_inj e2.2 hlen
      rw [hlk.1, ih (fun a ha => ok1 a (by simp [ha])) hlk.2 (fun a ha => ok2 a (by simp [ha]))]

theorem host_inv (m : Builder) (gap gap' : Bytes) (hg : gap.length = gap'.length) (n : Bytes)
    (used : List (List Bytes)) (hi : NInv m.pkt m.labels used) (hn : HostName n)
    (hc : ∀ u ∈ used, NoClash u (labelsOf n)) (hlen : m.pkt.length ≤ 16384) :
    ∃ out, (host (m.put gap) n).1.pkt = m.pkt ++ gap ++ out ∧ (host (m.put gap) n).2 = out.length ∧
      NInv (m.pkt ++ gap' ++ out) (host (m.put gap) n).1.labels (labelsOf n :: used) ∧
      Decodes (m.pkt ++ gap' ++ out) (m.pkt.length + gap'.length) (labelsOf n)
        (m.pkt ++ gap' ++ out).length := by
  have ht : Table (m.put gap).pkt (m.put gap).labels := hi.table.append gap
  obtain ⟨ls1, tail, h1, h2, h3, h4⟩ := host_spec (m.put gap) n hn ht
  have h1' : (host (m.put gap) n).1.pkt = m.pkt ++ gap ++ (encLabels ls1 ++ tail) := h1
  have h3' : (host (m.put gap) n).1.labels = m.labels ++
      (labelOffs (m.pkt.length + gap'.length) ls1).take (maxNumLabels - m.labels.length) := by
    rw [h3]; simp [Builder.put, hg]
  refine ⟨encLabels ls1 ++ tail, h1', h2, ?_⟩
  generalize hP : m.pkt ++ gap' ++ (encLabels ls1 ++ tail) = P
  have hP1 : m.pkt ++ (gap' ++ (encLabels ls1 ++ tail)) = P := by rw [← hP]; simp
  have hdrop : ∀ k, P.drop (m.pkt.length + gap'.length + k) = (encLabels ls1 ++ tail).drop k := by
    intro k
    rw [← hP, ← List.length_append, List.drop_append, List.drop_eq_nil_of_le (by omega), List.nil_append]
    congr 1; omega
  have hPlen : P.length = m.pkt.length + gap'.length + ((encLabels ls1).length + tail.length) := by
    rw [← hP]; simp; omega
  have hP12 : 12 ≤ P.length := by have := hi.len; rw [hPlen]; omega
  have hok : OkLabels (labelsOf n) := hn.labels
  -- what follows the labels written in place
  have htail : ∃ ls2 b r, labelsOf n = ls1 ++ ls2 ∧ tail = b :: r ∧ Term b ∧
      Decodes P (m.pkt.length + gap'.length + (encLabels ls1).length) ls2 P.length := by
    rcases h4 with ⟨e1, e2, _⟩ | ⟨ls2, t, b, e1, e2, e3, e4, e5⟩
    · refine ⟨[], 0, [], by simp [e1], e2, .inl rfl, ?_⟩
      intro h hh
      have hd : (h ++ P.drop 12).drop (m.pkt.length + gap'.length + (encLabels ls1).length) = [0] := by
        rw [drop_hdr hh (by have := hi.len; omega), hdrop, List.drop_left, e2]
      have : P.length = m.pkt.length + gap'.length + (encLabels ls1).length + 1 := by
        rw [hPlen, e2]; simp; omega
      rw [this]
      apply NameAt.root
      have := getElem?_of_drop hd 0
      simpa using this
    · have hmem : t ∈ m.labels := e3
      obtain ⟨h12, own, b', full, e, g1, g2, g3, u, g4, g5⟩ := hi.ent t hmem
      have hown : own = ls2 := (g1.append gap).own_unique e4
      subst hown
      have hfull : own = full := hc u g4 own full (by rw [e1]; exact List.suffix_append _ _) g5 e2 g3
      subst hfull
      refine ⟨own, _, _, e1, e5, term_ptr t, ?_⟩
      intro h hh
      have htl := g1.lt
      have hd : (h ++ P.drop 12).drop (m.pkt.length + gap'.length + (encLabels ls1).length) = ptrBytes t ++ [] := by
        rw [drop_hdr hh (by omega), hdrop, List.drop_left, e5]; simp
      have : P.length = m.pkt.length + gap'.length + (encLabels ls1).length + 2 := by
        rw [hPlen, e5]; simp [ptrBytes]; omega
      rw [this]
      apply NameAt.ptr hd (by omega) (by omega)
      have := (g2.mono hi.len (gap' ++ (encLabels ls1 ++ tail))) h hh
      rw [hP1] at this
      exact this
  obtain ⟨ls2, b, r, e1, e2, hb, hdec⟩ := htail
  have hok1 : OkLabels ls1 := fun a ha => hok a (by rw [e1]; simp [ha])
  -- every suffix decodes
  have hsuf : ∀ a c, ls1 = a ++ c → Decodes P (m.pkt.length + gap'.length + (encLabels a).length) (c ++ ls2) P.length := by
    intro a c hac h hh
    have hokc : OkLabels c := fun x hx => hok1 x (by rw [hac]; simp [hx])
    apply NameAt.run c _ tail ls2 P.length _ hokc
    · have := hdec h hh
      rw [hac, encLabels_append, List.length_append, ← Nat.add_assoc] at this
      exact this
    · rw [drop_hdr hh (by have := hi.len; omega), hdrop, hac, encLabels_append, List.append_assoc, List.drop_left]
  constructor
  · refine ⟨hP12, ?_⟩
    intro o ho
    rw [h3', List.mem_append] at ho
    rcases ho with ho | ho
    · have := (hi.mono (gap' ++ (encLabels ls1 ++ tail)) (labelsOf n :: used) (by intro x hx; simp [hx])).ent o ho
      rw [hP1] at this
      exact this
    · obtain ⟨a, c, hac, hcne, rfl⟩ := (labelOffs_mem _ _ _).1 (List.mem_of_mem_take ho)
      refine ⟨by have := hi.len; omega, c, b, c ++ ls2, P.length, ?_, hsuf a c hac, List.prefix_append _ _,
        labelsOf n, by simp, ?_⟩
      · refine ⟨⟨r, ?_⟩, hb, fun x hx => hok1 x (by rw [hac]; simp [hx]), hcne⟩
        rw [hdrop, hac, encLabels_append, List.append_assoc, List.drop_left, e2]
      · rw [e1, hac, List.append_assoc]; exact List.suffix_append _ _
  · have := hsuf [] ls1 rfl
    simp only [encLabels, List.flatMap_nil, List.length_nil, Nat.add_zero] at this
    rw [e1]; exact this

/-- The names of a call. -/
def nameOfOp (op : BOp) : List (List Bytes) :=
  match nameField op with
  | some f => [labelsOf f.1]
  | none => []

theorem bstep_inv (m : Builder) (op : BOp) (used : List (List Bytes)) (hi : NInv m.pkt m.labels used)
    (hn : ∀ f, nameField op = some f → HostName f.1)
    (hc : ∀ f, nameField op = some f → ∀ u ∈ used, NoClash u (labelsOf f.1))
    (hlen : m.pkt.length ≤ 16384) :
    NInv (bstep m op).pkt (bstep m op).labels (nameOfOp op ++ used) ∧
    ∀ f, nameField op = some f →
      Decodes (bstep m op).pkt (m.pkt.length + f.2.1) (labelsOf f.1) ((bstep m op).pkt.length - f.2.2) := by
  have plain : ∀ q : Bytes, NInv (m.put q).pkt (m.put q).labels used := fun q => hi.mono q used (fun _ h => h)
  cases op with
  | qd n t c =>
    have hn' := hn _ rfl
    have hc' := hc _ rfl
    obtain ⟨out, h1, _, h2, h3⟩ := host_inv { m with qd := m.qd + 1 } [] [] rfl n used hi hn' hc' hlen
    have h1' : (host { m with qd := m.qd + 1 } n).1.pkt = m.pkt ++ out := by simpa [Builder.put] using h1
    have hl : (host { m with qd := m.qd + 1 } n).1.labels = (host (Builder.put { m with qd := m.qd + 1 } []) n).1.labels := by
      simp [Builder.put]
    have hp : (bstep m (.qd n t c)).pkt = (m.pkt ++ out) ++ (putShort t ++ putShort c) := by
      simp [bstep, messageQd, Builder.put, h1']
    have h2' : NInv (m.pkt ++ out) (host { m with qd := m.qd + 1 } n).1.labels (labelsOf n :: used) := by
      rw [hl]; simpa using h2
    constructor
    · rw [hp]
      exact h2'.mono _ _ (fun _ h => h)
    · intro f hf
      cases hf
      have h3' : Decodes (m.pkt ++ out) m.pkt.length (labelsOf n) (m.pkt ++ out).length := by simpa using h3
      rw [hp]
      have := h3'.mono h2'.len (putShort t ++ putShort c)
      simpa [putShort, ← Nat.add_assoc] using this
  | rr s n t c l =>
    have hn' := hn _ rfl
    have hc' := hc _ rfl
    have gen : ∀ m' : Builder, m'.pkt = m.pkt → m'.labels = m.labels →
        NInv (rrAppend m' n t c l).pkt (rrAppend m' n t c l).labels (labelsOf n :: used) ∧
        Decodes (rrAppend m' n t c l).pkt m.pkt.length (labelsOf n) ((rrAppend m' n t c l).pkt.length - 8) := by
      intro m' hm hm2
      obtain ⟨out, h1, _, h2, h3⟩ := host_inv m' [] [] rfl n used (by rw [hm, hm2]; exact hi) hn' hc' (by rw [hm]; exact hlen)
      have hput : m'.put [] = m' := by simp [Builder.put]
      rw [hput] at h1 h2
      have hp : (rrAppend m' n t c l).pkt = (m.pkt ++ out) ++ (putShort t ++ putShort c ++ putLong l) := by
        simp only [rrAppend, Builder.put, h1, hm]; simp
      have hl : (rrAppend m' n t c l).labels = (host m' n).1.labels := rfl
      have h2' : NInv (m.pkt ++ out) (host m' n).1.labels (labelsOf n :: used) := by
        rw [hm] at h2; simpa using h2
      have h3' : Decodes (m.pkt ++ out) m.pkt.length (labelsOf n) (m.pkt ++ out).length := by
        rw [hm] at h3; simpa using h3
      rw [hp, hl]
      refine ⟨h2'.mono _ _ (fun _ h => h), ?_⟩
      have := h3'.mono h2'.len (putShort t ++ putShort c ++ putLong l)
      simpa [putShort, putLong, ← Nat.add_assoc] using this
    have : ∃ m' : Builder, m'.pkt = m.pkt ∧ m'.labels = m.labels ∧ bstep m (.rr s n t c l) = rrAppend m' n t c l := by
      cases s
      · exact ⟨{ m with an := m.an + 1 }, rfl, rfl, rfl⟩
      · exact ⟨{ m with ns := m.ns + 1 }, rfl, rfl, rfl⟩
      · exact ⟨{ m with ar := m.ar + 1 }, rfl, rfl, rfl⟩
    obtain ⟨m', e1, e2, e3⟩ := this
    rw [e3]
    have := gen m' e1 e2
    refine ⟨this.1, ?_⟩
    intro f hf
    cases hf
    exact this.2
  | long l => exact ⟨by
      have := plain (putShort 4 ++ putLong l)
      simpa [bstep, rdataLong, Builder.put, nameOfOp, nameField] using this, by intro f hf; cases hf⟩
  | ipv4 a => exact ⟨by
      have := plain (putShort 4 ++ a.toList)
      simpa [bstep, rdataIpv4, Builder.put, nameOfOp, nameField] using this, by intro f hf; cases hf⟩
  | ipv6 a => exact ⟨by
      have := plain (putShort 16 ++ a.toList)
      simpa [bstep, rdataIpv6, Builder.put, nameOfOp, nameField] using this, by intro f hf; cases hf⟩
  | raw d =>
    refine ⟨?_, by intro f hf; cases hf⟩
    simp only [bstep, rdataRaw]
    split
    · simpa [nameOfOp, nameField] using plain (putShort 0)
    · have := plain (putShort d.length ++ d)
      simpa [Builder.put, nameOfOp, nameField] using this
  | name n =>
    have hn' := hn _ rfl
    have hc' := hc _ rfl
    obtain ⟨out, h1, _, h3⟩ := rdataName_pkt m n
    obtain ⟨out', g1, g2, g3, g4⟩ := host_inv m [0, 0] (putShort out.length) rfl n used hi hn' hc' hlen
    have : out' = out := by
      rw [h1] at g1
      exact (List.append_cancel_left g1).symm
    subst this
    have hl : (bstep m (.name n)).labels = (host (m.put [0, 0]) n).1.labels := rfl
    have hp : (bstep m (.name n)).pkt = m.pkt ++ putShort out'.length ++ out' := h3
    rw [hp, hl]
    refine ⟨g3, ?_⟩
    intro f hf
    cases hf
    exact g4
  | srv p w o n =>
    have hn' := hn _ rfl
    have hc' := hc _ rfl
    obtain ⟨out, h1, _, h3⟩ := rdataSrv_pkt m p w o n
    have hput : (((m.put [0, 0]).put (putShort p)).put (putShort w)).put (putShort o)
        = m.put ([0, 0] ++ putShort p ++ putShort w ++ putShort o) := by simp [Builder.put]
    obtain ⟨out', g1, g2, g3, g4⟩ := host_inv m ([0, 0] ++ putShort p ++ putShort w ++ putShort o)
      (putShort (out.length + 6) ++ putShort p ++ putShort w ++ putShort o) (by simp [putShort]) n used hi hn' hc' hlen
    have : out' = out := by
      rw [hput, g1] at h1
      have : m.pkt ++ ([0, 0] ++ putShort p ++ putShort w ++ putShort o) ++ out'
          = m.pkt ++ ([0, 0] ++ putShort p ++ putShort w ++ putShort o) ++ out := by
        rw [h1]; simp
      exact List.append_cancel_left this
    subst this
    have hl : (bstep m (.srv p w o n)).labels = (host (m.put ([0, 0] ++ putShort p ++ putShort w ++ putShort o)) n).1.labels := by
      rw [← hput]; rfl
    have hp : (bstep m (.srv p w o n)).pkt
        = m.pkt ++ (putShort (out'.length + 6) ++ putShort p ++ putShort w ++ putShort o) ++ out' := by
      simp only [bstep]; rw [h3]; simp
    rw [hp, hl]
    refine ⟨g3, ?_⟩
    intro f hf
    cases hf
    exact g4

/-- A fresh message. -/
def start (id : Nat) (h : Header) : Builder := { id := id, header := h }

theorem brun_cons (m : Builder) (op : BOp) (ops : List BOp) : brun m (op :: ops) = brun (bstep m op) ops := rfl

theorem brun_prefix (m : Builder) (ops : List BOp) : ∃ q, (brun m ops).pkt = m.pkt ++ q := by
  induction ops generalizing m with
  | nil => exact ⟨[], by simp [brun]⟩
  | cons op ops ih =>
    obtain ⟨q, hq⟩ := ih (bstep m op)
    obtain ⟨a, ha, _⟩ := C10_append_only m op
    exact ⟨a ++ q, by rw [brun_cons, hq, ha]; simp⟩

theorem C02_gen (ops : List BOp) : ∀ (m : Builder) (used : List (List Bytes)),
    NInv m.pkt m.labels used →
    (∀ op ∈ ops, ∀ f, nameField op = some f → HostName f.1) →
    (∀ op ∈ ops, ∀ f, nameField op = some f → ∀ u ∈ used, NoClash u (labelsOf f.1)) →
    (ops.filterMap nameField).Pairwise (fun e n => NoClash (labelsOf e.1) (labelsOf n.1)) →
    (brun m ops).pkt.length ≤ 16384 →
    ∀ i op f, ops[i]? = some op → nameField op = some f →
    Decodes (brun m ops).pkt ((brun m (ops.take i)).pkt.length + f.2.1) (labelsOf f.1)
      ((brun m (ops.take (i + 1))).pkt.length - f.2.2) := by
  induction ops with
  | nil => intro m used _ _ _ _ _ i op f h; simp at h
  | cons op ops ih =>
    intro m used hi hn hc hp hlen i op' f hget hf
    rw [brun_cons] at hlen
    obtain ⟨q, hq⟩ := brun_prefix (bstep m op) ops
    obtain ⟨a, ha, _⟩ := C10_append_only m op
    have hmlen : m.pkt.length ≤ 16384 := by
      rw [hq, ha] at hlen; simp at hlen; omega
    obtain ⟨s1, s2⟩ := bstep_inv m op used hi (hn op (by simp)) (hc op (by simp)) hmlen
    cases i with
    | zero =>
      simp only [List.getElem?_cons_zero, Option.some.injEq] at hget
      subst hget
      have := (s2 f hf).mono s1.len q
      rw [← hq] at this
      simpa [brun] using this
    | succ i =>
      have hcons : ∀ f', nameField op = some f' → ∀ g ∈ ops.filterMap nameField, NoClash (labelsOf f'.1) (labelsOf g.1) := by
        intro f' hf' g hg
        rw [List.filterMap_cons, hf'] at hp
        exact (List.pairwise_cons.1 hp).1 g hg
      have := ih (bstep m op) _ s1 (fun o ho => hn o (by simp [ho])) (by
          intro o ho f' hf' u hu
          rw [List.mem_append] at hu
          rcases hu with hu | hu
          · unfold nameOfOp at hu
            split at hu
            · rename_i f0 hf0
              simp only [List.mem_singleton] at hu
              subst hu
              exact hcons f0 hf0 f' (List.mem_filterMap.2 ⟨o, ho, hf'⟩)
            · simp at hu
          · exact hc o (by simp [ho]) f' hf' u hu)
        (by
          rw [List.filterMap_cons] at hp
          split at hp
          · exact hp
          · exact (List.pairwise_cons.1 hp).2) hlen i op' f (by simpa using hget) hf
      simpa [brun_cons] using this

/-- **C02 (partial).** In every packet of at most 16384 bytes built from
well-formed names, the field written for each name argument decodes by RFC 1035
to exactly that name and ends where the next field starts, provided no ending of
a later name is the beginning of a longer ending of an earlier one. Both limits are needed, see
`C02_prefix_counterexample` and `C02_large_counterexample`. -/
theorem C02_names_decode_partial (id : Nat) (h : Header) (ops : List BOp)
    (hn : ∀ op ∈ ops, ∀ f, nameField op = some f → HostName f.1)
    (hc : (ops.filterMap nameField).Pairwise fun e n => NoClash (labelsOf e.1) (labelsOf n.1))
    (hlen : packetLen (brun (start id h) ops) ≤ 16384)
    (i : Nat) (op : BOp) (f : Bytes × Nat × Nat) (hop : ops[i]? = some op) (hf : nameField op = some f) :
    NameAt (messagePacket (brun (start id h) ops))
      (packetLen (brun (start id h) (ops.take i)) + f.2.1) (labelsOf f.1)
      (packetLen (brun (start id h) (ops.take (i + 1))) - f.2.2) := by
  have hinv : NInv (start id h).pkt (start id h).labels [] :=
    ⟨by simp [start], by intro o ho; simp [start] at ho⟩
  have := C02_gen ops (start id h) [] hinv hn (by intro _ _ _ _ u hu; simp at hu) hc hlen i op f hop hf
  exact this _ (by simp [headerBytes, putShort, flagBytes])

/-- Names that end in the same top label and have it nowhere else. -/
def Below (top : Bytes) (n : List Bytes) : Prop := ∃ a, n = a ++ [top] ∧ top ∉ a

theorem suffix_below {top : Bytes} {n s : List Bytes} (h : Below top n) (hs : s <:+ n) (hne : s ≠ []) : Below top s := by
  obtain ⟨a, rfl, ha⟩ := h
  obtain ⟨t, ht⟩ := hs
  have hs' : s = s.dropLast ++ [s.getLast hne] := (List.dropLast_concat_getLast hne).symm
  rw [hs', ← List.append_assoc] at ht
  have := List.append_inj' ht rfl
  refine ⟨s.dropLast, ?_, ?_⟩
  · have h2 := this.2
    simp only [List.cons.injEq, and_true] at h2
    rw [← h2]; exact hs'
  · intro hc
    apply ha
    rw [← this.1]; simp [hc]

theorem noClash_of_below {top : Bytes} {e n : List Bytes} (he : Below top e) (hn : Below top n) : NoClash e n := by
  intro s t hs ht hne hp
  obtain ⟨r, hr⟩ := hp
  have htne : t ≠ [] := by rintro rfl; simp at hr; exact hne hr.1
  obtain ⟨a, rfl, ha⟩ := suffix_below hn hs hne
  obtain ⟨c, rfl, hc⟩ := suffix_below he ht htne
  by_cases hrne : r = []
  · subst hrne; simpa using hr
  · exfalso
    apply hc
    rw [← List.dropLast_concat_getLast hrne, ← List.append_assoc] at hr
    have := (List.append_inj' hr rfl).1
    rw [← this]; simp

/-- **C02 (partial)** for names below a common top label, as used by mDNS. -/
theorem C02_local_names_decode_partial (id : Nat) (h : Header) (ops : List BOp) (top : Bytes)
    (hn : ∀ op ∈ ops, ∀ f, nameField op = some f → HostName f.1 ∧ Below top (labelsOf f.1))
    (hlen : packetLen (brun (start id h) ops) ≤ 16384)
    (i : Nat) (op : BOp) (f : Bytes × Nat × Nat) (hop : ops[i]? = some op) (hf : nameField op = some f) :
    NameAt (messagePacket (brun (start id h) ops))
      (packetLen (brun (start id h) (ops.take i)) + f.2.1) (labelsOf f.1)
      (packetLen (brun (start id h) (ops.take (i + 1))) - f.2.2) := by
  refine C02_names_decode_partial id h ops (fun op ho f hf => (hn op ho f hf).1) ?_ hlen i op f hop hf
  have hall : ∀ f ∈ ops.filterMap nameField, Below top (labelsOf f.1) := by
    intro f hf
    obtain ⟨op, ho, hf⟩ := List.mem_filterMap.1 hf
    exact (hn op ho f hf).2
  exact List.Pairwise.imp_of_mem (fun ha hb _ => noClash_of_below (hall _ ha) (hall _ hb))
    (List.pairwise_of_forall (l := ops.filterMap nameField) (R := fun _ _ => True) (fun _ _ => trivial))

/-- Decoding is a function: the packet determines name and end. -/
theorem NameAt.unique {p : Bytes} {o ls e ls' e'} (h : NameAt p o ls e) (h' : NameAt p o ls' e') :
    ls = ls' ∧ e = e' := by
  have hl : ∀ l : Bytes, 1 ≤ l.length → l.length ≤ 63 → (UInt8.ofNat l.length).toNat = l.length := by
    intro l _ _; simp only [UInt8.toNat_ofNat']; omega
  induction h generalizing ls' e' with
  | root o h =>
    cases h' with
    | root => exact ⟨rfl, rfl⟩
    | label _ l _ _ h1 h2 h3 =>
      rw [h, Option.some.injEq] at h3
      have := hl l h1 h2
      rw [← h3] at this; simp at this; omega
    | pointer _ b0 _ _ _ h1 h2 =>
      rw [h, Option.some.injEq] at h1
      rw [← h1] at h2; simp at h2
  | label o l ls e h1 h2 h3 h4 _ ih =>
    cases h' with
    | root _ g =>
      rw [h3, Option.some.injEq] at g
      have := hl l h1 h2
      rw [g] at this; simp at this; omega
    | label _ l' ls' _ g1 g2 g3 g4 g5 =>
      rw [h3, Option.some.injEq] at g3
      have hlen : l.length = l'.length := by rw [← hl l h1 h2, g3, hl l' g1 g2]
      have : l = l' := by
        apply List.ext_getElem? 
        intro i
        by_cases hi : i < l.length
        · rw [← h4 i hi, g4 i (by omega)]
        · rw [List.getElem?_eq_none (by omega), List.getElem?_eq_none (by omega)]
      subst this
      have := ih g5
      exact ⟨by rw [this.1], this.2⟩
    | pointer _ b0 _ _ _ g1 g2 =>
      rw [h3, Option.some.injEq] at g1
      have := hl l h1 h2
      rw [g1] at this; omega
  | pointer o b0 b1 ls e h1 h2 h3 _ _ ih =>
    cases h' with
    | root _ g =>
      rw [h1, Option.some.injEq] at g
      rw [g] at h2; simp at h2
    | label _ l' _ _ g1 g2 g3 =>
      rw [h1, Option.some.injEq] at g3
      have := hl l' g1 g2
      rw [← g3] at this; omega
    | pointer _ c0 c1 _ _ g1 g2 g3 _ g5 =>
      rw [h1, Option.some.injEq] at g1
      rw [h3, Option.some.injEq] at g3
      subst g1 g3
      exact ⟨(ih g5).1, rfl⟩

/-! ### Witnesses -/

/-- "a.local.", "b.a.local.", "x.b.a.local". -/
def nameA : Bytes := [0x61, 0x2E, 0x6C, 0x6F, 0x63, 0x61, 0x6C, 0x2E]
def nameBA : Bytes := [0x62, 0x2E] ++ nameA
def nameXBA : Bytes := [0x78, 0x2E, 0x62, 0x2E, 0x61, 0x2E, 0x6C, 0x6F, 0x63, 0x61, 0x6C]
/-- "b." -/
def nameB : Bytes := [0x62, 0x2E]

example : labelsOf nameXBA = [[0x78], [0x62], [0x61], [0x6C, 0x6F, 0x63, 0x61, 0x6C]] := by decide +kernel

theorem hostName_of_check (n : Bytes)
    (h : ((labelsOf n).all fun l => decide (1 ≤ l.length ∧ l.length ≤ 63)) = true ∧
      (stripDot n).length ≤ 254 ∧ n.contains 0 = false) : HostName n :=
  ⟨by simpa using h.1, h.2.1, by simpa using h.2.2⟩

example : ∀ op ∈ [BOp.qd nameA 1 1, .rr .an nameBA 33 1 120, .srv 0 0 80 nameXBA],
    ∀ f, nameField op = some f → HostName f.1 ∧ Below [0x6C, 0x6F, 0x63, 0x61, 0x6C] (labelsOf f.1) := by
  intro op hop f hf
  simp only [List.mem_cons, List.not_mem_nil, or_false] at hop
  rcases hop with rfl | rfl | rfl <;> cases hf
  · exact ⟨hostName_of_check _ (by decide +kernel), [[0x61]], by decide +kernel, by decide +kernel⟩
  · exact ⟨hostName_of_check _ (by decide +kernel), [[0x62], [0x61]], by decide +kernel, by decide +kernel⟩
  · exact ⟨hostName_of_check _ (by decide +kernel), [[0x78], [0x62], [0x61]], by decide +kernel, by decide +kernel⟩

example : packetLen (brun (start 0 {}) [BOp.qd nameA 1 1, .rr .an nameBA 33 1 120, .srv 0 0 80 nameXBA]) = 51 := by
  decide +kernel

/-- **C02 is false without the condition on names**: after "a.local." and
"b.a.local.", the name "b." is encoded as a pointer to "b.a.local.". -/
theorem C02_prefix_counterexample :
    (∀ n ∈ [nameA, nameBA, nameB], HostName n) ∧
    ¬ ∃ e, NameAt (messagePacket (brun (start 0 {}) [.qd nameA 1 1, .qd nameBA 1 1, .qd nameB 1 1]))
      (packetLen (brun (start 0 {}) [.qd nameA 1 1, .qd nameBA 1 1])) (labelsOf nameB) e := by
  constructor
  · intro n hn
    simp only [List.mem_cons, List.not_mem_nil, or_false] at hn
    rcases hn with rfl | rfl | rfl <;> exact hostName_of_check _ (by decide +kernel)
  · rintro ⟨e, h⟩
    generalize hp : messagePacket (brun (start 0 {}) [.qd nameA 1 1, .qd nameBA 1 1, .qd nameB 1 1]) = p at h
    have hlen : packetLen (brun (start 0 {}) [.qd nameA 1 1, .qd nameBA 1 1]) = 33 := by decide +kernel
    have hlab : labelsOf nameB = [[0x62]] := by decide +kernel
    rw [hlen, hlab] at h
    have hp' : p = [0,0,0,0,0,3,0,0,0,0,0,0, 1,0x61,5,0x6C,0x6F,0x63,0x61,0x6C,0,0,1,0,1,
        1,0x62,0xc0,12,0,1,0,1, 0xc0,25,0,1,0,1] := by rw [← hp]; decide +kernel
    have good : NameAt p 33 [[0x62], [0x61], [0x6C, 0x6F, 0x63, 0x61, 0x6C]] 35 := by
      rw [hp']
      refine .pointer 33 0xc0 25 _ 29 (by decide) (by decide) (by decide) (by decide) ?_
      refine .label 25 [0x62] _ _ (by decide) (by decide) (by decide) (by decide) ?_
      refine .pointer 27 0xc0 12 _ 21 (by decide) (by decide) (by decide) (by decide) ?_
      refine .label 12 [0x61] _ _ (by decide) (by decide) (by decide) (by decide) ?_
      refine .label 14 [0x6C, 0x6F, 0x63, 0x61, 0x6C] _ _ (by decide) (by decide) (by decide) (by decide) ?_
      exact .root 20 (by decide)
    have := (NameAt.unique h good).1
    simp at this

/-! #### Large packets -/

/-- "a." -/
def nameShort : Bytes := [0x61, 0x2E]

/-- An address record of the root and one of "a.". -/
def rootRec : List BOp := [.rr .an [0x2E] 28 1 120, .ipv6 (Vector.replicate 16 0)]
def shortRec : List BOp := [.rr .an nameShort 28 1 120, .ipv6 (Vector.replicate 16 0)]

/-- The second record of "a.". -/
def secondOp : BOp := .rr .an nameShort 28 1 120

/-- 607 records of the root and one of "a.". -/
def farOps : List BOp := (List.replicate 607 rootRec).flatten ++ shortRec

/-- The bytes of a record of the root. -/
def rootBytes : Bytes := [0, 0, 28, 0, 1, 0, 0, 0, 120, 0, 16] ++ List.replicate 16 0

theorem brun_roots (n : Nat) : ∀ (m : Builder), brun m (List.replicate n rootRec).flatten =
    { m with an := m.an + n, pkt := m.pkt ++ (List.replicate n rootBytes).flatten } := by
  induction n with
  | zero => intro m; simp [brun]
  | succ n ih =>
    intro m
    have h : brun m rootRec = { m with an := m.an + 1, pkt := m.pkt ++ rootBytes } := by
      have h1 : mkLabel [] [] [0x2E] = some [0] := by decide
      have h2 : ∀ p ls, compressF [0] p ls 1 0 = [0] := by
        intro p ls
        simp [compressF]
      have h3 : ∀ b ls, addLabelsF [0] b 1 0 ls = ls := by
        intro b ls
        simp [addLabelsF]
      simp [rootRec, brun, bstep, messageRr, rrAppend, host, h1, h2, h3, Builder.put, rdataIpv6, putShort, putLong, rootBytes,
        List.append_assoc]
    rw [List.replicate_succ, List.flatten_cons]
    unfold brun at h ih ⊢
    rw [List.foldl_append, h, ih]
    simp [List.replicate_succ]
    omega

/-- The packet up to the first record of "a.". -/
def roots : Bytes := List.replicate 12 0 ++ (List.replicate 607 rootBytes).flatten

theorem roots_length : roots.length = 16401 := by
  have h : ∀ n : Nat, (List.replicate n rootBytes).flatten.length = 27 * n := by
    intro n
    induction n with
    | zero => rfl
    | succ n ih =>
      rw [List.replicate_succ, List.flatten_cons, List.length_append, ih, show rootBytes.length = 27 from rfl]
      omega
  unfold roots
  rw [List.length_append, h, List.length_replicate]

theorem short_label : mkLabel [] [] nameShort = some [1, 0x61, 0] := by decide

/-- The record of "a." written in full. -/
def shortBytes : Bytes := [1, 0x61, 0, 0, 28, 0, 1, 0, 0, 0, 120, 0, 16] ++ List.replicate 16 0

theorem brun_short (m : Builder) (hm : m.labels = []) : brun m shortRec =
    { m with an := m.an + 1, pkt := m.pkt ++ shortBytes, labels := [m.pkt.length] } := by
  have h2 : ∀ p, compressF [1, 0x61, 0] p [] 3 0 = [1, 0x61, 0] := by
    intro p
    have : isPtr 1 = false := by decide
    simp [compressF, this]
  have h3 : ∀ b, addLabelsF [1, 0x61, 0] b 3 0 [] = [b] := by
    intro b
    have : isPtr 1 = false := by decide
    simp [addLabelsF, this, maxNumLabels]
  simp [shortRec, brun, bstep, messageRr, rrAppend, host, short_label, h2, h3, hm, Builder.put, rdataIpv6, putShort, putLong,
    shortBytes]

theorem brun_far : brun (start 0 {}) farOps =
    { id := 0, header := {}, an := 608, pkt := roots ++ shortBytes, labels := [16401] } := by
  have h1 := brun_roots 607 (start 0 {})
  have h2 := brun_short (brun (start 0 {}) (List.replicate 607 rootRec).flatten) (by rw [h1]; rfl)
  have h3 : brun (start 0 {}) farOps = brun (brun (start 0 {}) (List.replicate 607 rootRec).flatten) shortRec := by
    unfold brun farOps
    rw [List.foldl_append]
  have e1 : (start 0 {}).pkt ++ (List.replicate 607 rootBytes).flatten = roots := rfl
  rw [h3, h2, h1]
  rw [e1, roots_length]
  have e2 : (start 0 {}).an + 607 + 1 = 608 := by
    show 0 + 607 + 1 = 608
    decide
  rw [e2]
  rfl

theorem far_at (i : Nat) : (roots ++ shortBytes).getD (16401 + i) 0 = shortBytes.getD i 0 := by
  rw [List.getD_eq_getElem?_getD, List.getD_eq_getElem?_getD, List.getElem?_append_right (by rw [roots_length]; omega), roots_length,
    show 16401 + i - 16401 = i by omega]

theorem far_match : lmatch [1, 0x61, 0] (roots ++ shortBytes) (.lab 0) (.pkt 16401) = some true := by
  unfold lmatch lmatchF
  have g0 : (roots ++ shortBytes).getD 16401 0 = 1 := far_at 0
  have g1 : (roots ++ shortBytes).getD 16402 0 = 0x61 := far_at 1
  have g2 : (roots ++ shortBytes).getD 16403 0 = 0 := far_at 2
  have : isPtr 1 = false := by decide
  generalize roots ++ shortBytes = q at g0 g1 g2
  rw [List.getD_eq_getElem?_getD] at g0 g1 g2
  simp [g0, g1, g2, this, sameBytes, LPtr.rd, LPtr.add]

theorem far_second : (bstep (brun (start 0 {}) farOps) secondOp).pkt =
    roots ++ shortBytes ++ [0xc0, 17, 0, 28, 0, 1, 0, 0, 0, 120] := by
  have h : compressF [1, 0x61, 0] (roots ++ shortBytes) [16401] 3 0 = [0xc0, 17] := by
    unfold compressF
    rw [List.find?_cons_of_pos (by rw [far_match]; rfl)]
    rfl
  rw [brun_far]
  simp [secondOp, bstep, messageRr, rrAppend, host, short_label, h, Builder.put, putShort, putLong]

/-- **C02 is false for packets of more than 16384 bytes**: the second record of "a." has a pointer to the first one, at
16401, where only 14 bits are left of the offset (`libmdnsd/1035.c:237-238`), so that it is read as the root. -/
theorem C02_large_counterexample :
    (∀ f ∈ (farOps ++ [secondOp]).filterMap nameField, HostName f.1) ∧
    ((farOps ++ [secondOp]).filterMap nameField).Pairwise (fun e n => NoClash (labelsOf e.1) (labelsOf n.1)) ∧
    packetLen (brun (start 0 {}) (farOps ++ [secondOp])) = 16440 ∧
    ¬ ∃ e, NameAt (messagePacket (brun (start 0 {}) (farOps ++ [secondOp])))
      (packetLen (brun (start 0 {}) farOps)) (labelsOf nameShort) e := by
  have names : ∀ f ∈ (farOps ++ [secondOp]).filterMap nameField, f.1 = ([0x2E] : Bytes) ∨ f.1 = nameShort := by
    intro f hf
    obtain ⟨op, ho, e⟩ := List.mem_filterMap.1 hf
    simp only [farOps, List.mem_append, List.mem_flatten, List.mem_replicate, shortRec, List.mem_cons, List.not_mem_nil, or_false] at ho
    rcases ho with (⟨l, ⟨_, rfl⟩, ho⟩ | ho) | ho
    · simp only [rootRec, List.mem_cons, List.not_mem_nil, or_false] at ho
      rcases ho with rfl | rfl
      · cases e; exact .inl rfl
      · cases e
    · rcases ho with rfl | rfl
      · cases e; exact .inr rfl
      · cases e
    · subst ho
      cases e
      exact .inr rfl
  have l0 : labelsOf ([0x2E] : Bytes) = [] := by decide
  have l1 : labelsOf nameShort = [[0x61]] := by decide
  have hlast : brun (start 0 {}) (farOps ++ [secondOp]) =
      bstep (brun (start 0 {}) farOps) secondOp := by
    unfold brun
    rw [List.foldl_append]
    rfl
  refine ⟨?_, ?_, ?_, ?_⟩
  · intro f hf
    rcases names f hf with h | h <;> rw [h] <;> exact hostName_of_check _ (by decide +kernel)
  · refine List.Pairwise.imp_of_mem ?_ (List.pairwise_of_forall fun _ _ => True.intro)
    intro a b ha hb _ s t hs ht hne hp
    have sub : ∀ {x : List Bytes} {f : Bytes × Nat × Nat}, f.1 = ([0x2E] : Bytes) ∨ f.1 = nameShort → x <:+ labelsOf f.1 →
        x = [] ∨ x = [[0x61]] := by
      intro x f h hx
      rcases h with h | h
      · rw [h, l0] at hx
        exact .inl (List.suffix_nil.1 hx)
      · rw [h, l1] at hx
        rcases List.suffix_cons_iff.1 hx with h | h
        · exact .inr h
        · exact .inl (List.suffix_nil.1 h)
    rcases sub (names b hb) hs with h | h
    · exact absurd h hne
    rcases sub (names a ha) ht with h' | h'
    · subst h h'
      exact absurd (List.prefix_nil.1 hp) (by simp)
    · exact h.trans h'.symm
  · rw [hlast]
    unfold packetLen
    rw [far_second]
    simp [roots_length, shortBytes]
  · rintro ⟨e, h⟩
    have hl : packetLen (brun (start 0 {}) farOps) = 16430 := by
      unfold packetLen
      rw [brun_far]
      simp [roots_length, shortBytes]
    rw [hl, hlast, l1] at h
    unfold messagePacket at h
    rw [far_second] at h
    have hh : ∀ m : Builder, (headerBytes m).length = 12 := by
      intro m
      simp [headerBytes, putShort, flagBytes]
    have hd : (roots ++ shortBytes ++ [0xc0, 17, 0, 28, 0, 1, 0, 0, 0, 120]).drop 12 =
        rootBytes ++ ((List.replicate 606 rootBytes).flatten ++ shortBytes ++ [0xc0, 17, 0, 28, 0, 1, 0, 0, 0, 120]) := by
      unfold roots
      rw [List.append_assoc, List.append_assoc, List.drop_append_of_le_length (by simp), List.drop_eq_nil_of_le (by simp),
        List.replicate_succ (n := 606), List.flatten_cons, List.nil_append, List.append_assoc, List.append_assoc]
    have hx : (headerBytes (bstep (brun (start 0 {}) farOps) secondOp) ++
        (roots ++ shortBytes ++ [0xc0, 17, 0, 28, 0, 1, 0, 0, 0, 120]).drop 12).drop 16430 =
          [0xc0, 17, 0, 28, 0, 1, 0, 0, 0, 120] := by
      rw [drop_hdr (hh _) (by omega)]
      rw [List.drop_append, List.drop_eq_nil_of_le (by simp [roots_length, shortBytes])]
      simp [roots_length, shortBytes]
    have h17 : ∀ a : Bytes, a.length = 12 → (a ++ (roots ++ shortBytes ++ [0xc0, 17, 0, 28, 0, 1, 0, 0, 0, 120]).drop 12)[17]? = some 0 := by
      intro a ha
      rw [List.getElem?_append_right (by omega), ha, hd, List.getElem?_append_left (by decide)]
      rfl
    have good := NameAt.ptr (r := [0, 28, 0, 1, 0, 0, 0, 120]) (t := 17) (hx.trans (by decide)) (by decide) (by decide)
      (.root 17 (h17 _ (hh _)))
    have := (NameAt.unique h good).1
    simp at this

end Mdns
