import Verif.Model.Parser
import Verif.Lemmas.Util

/-! Safety lemmas about the parser: which outcomes are possible. -/

namespace Mdns

/-- `r` does not hang, does not write outside the structure, reads outside the
buffer only if `O`, and satisfies `P` if it succeeds. -/
def Sat {α : Type} (O : Prop) (r : PRes α) (P : α → Prop) : Prop :=
  match r with
  | .ok a => P a
  | .fail => True
  | .oob => O
  | .wub => False
  | .hang => False

theorem Sat.bind {α β : Type} {O : Prop} {r : PRes α} {f : α → PRes β} {P : α → Prop} {Q : β → Prop}
    (h : Sat O r P) (hf : ∀ a, P a → Sat O (f a) Q) : Sat O (r >>= f) Q := by
  cases r with
  | ok a => exact hf a h
  | fail => trivial
  | oob => exact h
  | wub => exact h
  | hang => exact h

theorem Sat.mono {α : Type} {O : Prop} {r : PRes α} {P Q : α → Prop} (h : Sat O r P)
    (hpq : ∀ a, P a → Q a) : Sat O r Q := by
  cases r with
  | ok a => exact hpq a h
  | fail => trivial
  | oob => exact h
  | wub => exact h
  | hang => exact h

/-- Keep the equation of the result together with the postcondition. -/
theorem Sat.withEq {α : Type} {O : Prop} {r : PRes α} {P : α → Prop} (h : Sat O r P) :
    Sat O r (fun a => r = .ok a ∧ P a) := by
  cases r with
  | ok a => exact ⟨rfl, h⟩
  | fail => trivial
  | oob => exact h
  | wub => exact h
  | hang => exact h

theorem Sat.ok {α : Type} {O : Prop} {a : α} {P : α → Prop} (h : P a) : Sat O (.ok a) P := h

theorem Sat.pure {α : Type} {O : Prop} {a : α} {P : α → Prop} (h : P a) :
    Sat O (Pure.pure a : PRes α) P := h

theorem sat_rd (b : RBuf) (i bound : Nat) (h : i < bound) :
    Sat (b.size < bound) (b.rd i) (fun c => i < b.size ∧ c = b.at_ i) := by
  unfold RBuf.rd
  split
  · exact ⟨‹_›, rfl⟩
  · show b.size < bound
    omega

theorem sat_rdN (b : RBuf) (i n bound : Nat) (h : n = 0 ∨ i + n ≤ bound) :
    Sat (b.size < bound) (b.rdN i n) (fun l => l.length = n) := by
  unfold RBuf.rdN
  split
  · subst_vars; rfl
  · split
    · show _ = _
      simp
    · show b.size < bound
      omega

theorem sat_wr (O : Prop) (cap stop : Nat) (h : stop ≤ cap) : Sat O (wr cap stop) (fun _ => True) := by
  unfold wr; rw [if_pos h]; trivial

theorem short2_lt (a b : UInt8) : short2 a b < 65536 := by
  unfold short2
  have ha := a.toNat_lt
  have hb := b.toNat_lt
  have h1 : a.toNat <<< 8 < 2 ^ 16 := by rw [Nat.shiftLeft_eq]; omega
  exact Nat.or_lt_two_pow h1 (by omega)

theorem sat_short (b : RBuf) (i bound : Nat) (h : i + 1 < bound) :
    Sat (b.size < bound) (b.short i) (fun v => v < 65536) := by
  unfold RBuf.short
  refine Sat.bind (sat_rd b i bound (by omega)) fun c _ => ?_
  refine Sat.bind (sat_rd b (i + 1) bound (by omega)) fun c1 _ => ?_
  exact Sat.pure (short2_lt _ _)

theorem sat_long (b : RBuf) (i bound : Nat) (h : i + 3 < bound) :
    Sat (b.size < bound) (b.long i) (fun _ => True) := by
  unfold RBuf.long
  refine Sat.bind (sat_rd b i bound (by omega)) fun _ _ => ?_
  refine Sat.bind (sat_rd b (i + 1) bound (by omega)) fun _ _ => ?_
  refine Sat.bind (sat_rd b (i + 2) bound (by omega)) fun _ _ => ?_
  refine Sat.bind (sat_rd b (i + 3) bound (by omega)) fun _ _ => ?_
  exact Sat.pure trivial

theorem ldecomp_lt (a b : UInt8) : ldecomp a b ≤ 4095 := by
  unfold ldecomp; simp only; split <;> omega

theorem isPtr_false_lt {c : UInt8} (h : isPtr c = false) : c.toNat < 64 := by
  exact forall_byte (p := fun c => isPtr c = false → c.toNat < 64) (by decide +kernel) c h

theorem isPtr_zero : isPtr 0 = false := by decide

/-- Everything the parser may look at if all goes as far as the checks allow:
65535 bytes, then at most 4095 questions of 6 bytes and one record header. -/
def readBound : Nat := 90124

theorem sat_skipPtr (b : RBuf) (len : Nat) : ∀ fuel prev label, fuel + prev ≥ 4100 → prev ≤ 4096 →
    label + 1 < readBound →
    Sat (b.size < readBound) (skipPtrF b len fuel prev label)
      (fun l => l < b.size ∧ isPtr (b.at_ l) = false ∧ (l = label ∨ l ≤ 4095)) := by
  intro fuel
  induction fuel with
  | zero => intro prev label h1 h2; omega
  | succ fuel ih =>
    intro prev label h1 h2 h3
    unfold skipPtrF
    refine Sat.bind (sat_rd b label readBound (by omega)) fun c hc => ?_
    split
    · refine Sat.bind (sat_rd b (label + 1) readBound h3) fun c1 _ => ?_
      have hl := ldecomp_lt c c1
      have hrb : readBound = 90124 := rfl
      simp only
      split
      · trivial
      · refine Sat.bind (sat_rd b (ldecomp c c1) readBound (by omega)) fun t ht => ?_
        split
        · rename_i h0
          subst h0
          refine Sat.ok ⟨ht.1, ?_, .inr hl⟩
          rw [← ht.2]; exact isPtr_zero
        · refine Sat.mono (ih (ldecomp c c1 + 1) (ldecomp c c1) (by omega) (by omega) (by omega)) ?_
          intro l hl'
          exact ⟨hl'.1, hl'.2.1, .inr (by omega)⟩
    · rename_i hp
      obtain ⟨hc1, hc2⟩ := hc
      subst hc2
      exact Sat.ok ⟨hc1, by simpa using hp, .inl rfl⟩

theorem sat_copyLabels (b : RBuf) (cap len : Nat) (hcap : 65536 ≤ cap) : ∀ fuel label name,
    fuel + name.length ≥ 260 → name.length ≤ 256 → label + 1 < readBound →
    Sat (b.size < readBound) (copyLabelsF b cap len fuel label name)
      (fun t => t.length ≤ 256 ∧ (t = [] ∨ t.length = name.length ∨ len + t.length ≤ 65535)) := by
  intro fuel
  induction fuel with
  | zero => intro label name h1 h2; omega
  | succ fuel ih =>
    intro label name h1 h2 h3
    unfold copyLabelsF
    have hrb : readBound = 90124 := rfl
    have hmp : maxPacketLen = 65535 := rfl
    refine Sat.bind (sat_rd b label readBound (by omega)) fun c hc => ?_
    split
    · exact Sat.ok ⟨h2, .inr (.inl rfl)⟩
    · refine Sat.bind (sat_skipPtr b len ptrFuel 0 label (by decide) (by omega) h3) fun l hl => ?_
      refine Sat.bind (sat_rd b l readBound (by omega)) fun c2 hc2 => ?_
      simp only
      have h64 : c2.toNat < 64 := isPtr_false_lt (by rw [hc2.2]; exact hl.2.1)
      split
      · trivial
      · rename_i hlim
        refine Sat.bind (sat_rdN b (l + 1) c2.toNat readBound (by omega)) fun chars hch => ?_
        refine Sat.bind (sat_wr _ cap _ (by omega)) fun _ _ => ?_
        refine Sat.mono (ih (l + 1 + c2.toNat) (name ++ chars ++ [0x2E]) ?_ ?_ (by omega)) ?_
        · simp only [List.length_append, List.length_cons, List.length_nil]; omega
        · simp only [List.length_append, List.length_cons, List.length_nil]; omega
        · intro t ht
          refine ⟨ht.1, ?_⟩
          rcases ht.2 with h | h | h
          · exact .inl h
          · refine .inr (.inr ?_)
            simp only [List.length_append, List.length_cons, List.length_nil] at h
            omega
          · exact .inr (.inr h)

theorem skipPtr_nonptr (b : RBuf) (len fuel prev label : Nat) (hs : label < b.size)
    (h : isPtr (b.at_ label) = false) : skipPtrF b len (fuel + 1) prev label = .ok label := by
  unfold skipPtrF
  simp [RBuf.rd, hs, h, bind, PRes.bind]

/-- If the names at `label` could be copied, skipping over them ends at most two
bytes behind `label` or behind the 65535 bytes a packet may have. -/
theorem sat_advance (b : RBuf) (cap len : Nat) : ∀ cfuel fuel label name t,
    copyLabelsF b cap len cfuel label name = .ok t →
    1 ≤ fuel → fuel + label ≥ b.size + 1 →
    Sat False (advanceF b fuel label)
      (fun p => p ≤ max 65537 (label + 2) ∧ label < p) := by
  intro cfuel
  induction cfuel with
  | zero => intro fuel label name t h; simp [copyLabelsF] at h
  | succ cfuel ih =>
    intro fuel label name t h h1 h2
    cases fuel with
    | zero => omega
    | succ fuel =>
      unfold copyLabelsF at h
      unfold advanceF
      by_cases hs : label < b.size
      · have hrd : b.rd label = .ok (b.at_ label) := by simp [RBuf.rd, hs]
        rw [hrd] at h ⊢
        simp only [bind, PRes.bind] at h ⊢
        by_cases h0 : b.at_ label = 0
        · simp only [h0, if_true]
          show _ ∧ _
          omega
        · rw [if_neg h0] at h ⊢
          cases hp : isPtr (b.at_ label) with
          | true =>
            simp only [if_true]
            show _ ∧ _
            omega
          | false =>
            rw [show ptrFuel = 4099 + 1 from rfl, skipPtr_nonptr b len 4099 0 label hs hp] at h
            simp only [hrd] at h
            split at h
            · simp at h
            · rename_i hlim
              have hmp : maxPacketLen = 65535 := rfl
              cases hr : b.rdN (label + 1) (b.at_ label).toNat <;> rw [hr] at h <;> try simp at h
              rename_i chars
              cases hw : wr cap (len + name.length + (b.at_ label).toNat + 1) <;> rw [hw] at h <;> try simp at h
              simp only [Bool.false_eq_true, if_false]
              have hne : (b.at_ label).toNat ≠ 0 := by
                intro hc; apply h0; exact UInt8.toNat_inj.1 (by simpa using hc)
              have e : label + (b.at_ label).toNat + 1 = label + 1 + (b.at_ label).toNat := by omega
              rw [e]
              have := ih fuel _ _ _ h (by omega) (by omega)
              refine Sat.mono this ?_
              intro p hpp
              omega
      · exfalso
        have hrd : b.rd label = .oob := by simp [RBuf.rd, hs]
        rw [hrd] at h
        simp [bind, PRes.bind] at h

/-- The label table is never written behind its end. -/
theorem cacheName_eq (cache : List Bytes) (n : Bytes) :
    cacheName cache n = .ok (if cache.length < maxNumLabels then cache ++ [n] else cache) := by
  unfold cacheName putLabel maxNumLabels
  split
  · rename_i h; simp
  · rfl

/-- Length of the block only grows and positions stay bounded. -/
theorem sat_parseLabel (b : RBuf) (cap : Nat) (hcap : 65536 ≤ cap) (s : PState)
    (hpos : s.pos + 1 < readBound) :
    Sat (b.size < readBound) (parseLabel b cap s)
      (fun r => s.len < 65535 ∧ r.1.length ≤ 256 ∧ 0 ∉ r.1 ∧ r.2.pos ≤ max 65537 (s.pos + 2) ∧
        s.pos < r.2.pos ∧ s.len ≤ r.2.len) := by
  unfold parseLabel
  have hmp : maxPacketLen = 65535 := rfl
  split
  · trivial
  · rename_i hlen
    refine Sat.bind (sat_copyLabels b cap s.len hcap copyFuel s.pos [] (by decide) (by simp) hpos).withEq
      fun t ht => ?_
    have hadv := sat_advance b cap s.len copyFuel (b.size + 1) s.pos [] t ht.1 (by omega) (by omega)
    have hadv' : Sat (b.size < readBound) (advanceF b (b.size + 1) s.pos)
        (fun p => p ≤ max 65537 (s.pos + 2) ∧ s.pos < p) := by
      revert hadv
      cases advanceF b (b.size + 1) s.pos <;> simp [Sat]
    refine Sat.bind hadv' fun pos hp => ?_
    have hb : s.len + t.length + 1 ≤ 65536 := by
      rcases ht.2.2 with h | h | h
      · subst h; simp; omega
      · simp at h; subst h; simp; omega
      · omega
    refine Sat.bind (sat_wr _ cap _ (by omega)) fun _ _ => ?_
    have hnul := cstr_nul_free t
    have hcl : (cstr t).length ≤ 256 :=
      Nat.le_trans (length_takeWhile_le' ..) ht.2.1
    simp only
    split
    · exact Sat.ok ⟨by omega, hcl, hnul, hp.1, hp.2, Nat.le_refl _⟩
    · rw [cacheName_eq]
      exact Sat.ok ⟨by omega, hcl, hnul, hp.1, hp.2, by simp only; omega⟩

/-- A name is a C string of at most 256 characters. -/
def NameOk (n : Bytes) : Prop := n.length ≤ 256 ∧ 0 ∉ n

def Known.NameOk : Known → Prop
  | .name n => Mdns.NameOk n
  | .srv _ _ _ n => Mdns.NameOk n
  | _ => True

def Resource.NamesOk (r : Resource) : Prop := Mdns.NameOk r.name ∧ r.known.NameOk

theorem sat_parseRr (b : RBuf) (cap slot : Nat) (hcap : 65536 ≤ cap) (s : PState)
    (hpos : s.pos ≤ 90111) (hslot : slot + 64 ≤ s.len) :
    Sat (b.size < readBound) (parseRr b cap slot s)
      (fun r => r.1.NamesOk ∧ r.2.pos ≤ 65551 ∧ s.len ≤ r.2.len) := by
  have hrb : readBound = 90124 := rfl
  have hmp : maxPacketLen = 65535 := rfl
  unfold parseRr
  refine Sat.bind (sat_parseLabel b cap hcap s (by omega)) fun r hr => ?_
  obtain ⟨name, s1⟩ := r
  obtain ⟨hlen, hn1, hn2, hp1, hp2, hl1⟩ := hr
  simp only at hn1 hn2 hp1 hp2 hl1 ⊢
  refine Sat.bind (sat_wr _ cap _ (by omega)) fun _ _ => ?_
  refine Sat.bind (sat_short b _ readBound (by omega)) fun type _ => ?_
  refine Sat.bind (sat_short b _ readBound (by omega)) fun cls _ => ?_
  refine Sat.bind (sat_long b _ readBound (by omega)) fun ttl _ => ?_
  refine Sat.bind (sat_short b _ readBound (by omega)) fun rdlength hrd => ?_
  split
  · trivial
  · rename_i hlim
    split
    · refine Sat.bind (sat_parseLabel b cap hcap _ (by simp only; omega)) fun r hr => ?_
      obtain ⟨n, s2⟩ := r
      obtain ⟨h1, h2, h3, h4, h5, h6⟩ := hr
      simp only at h1 h2 h3 h4 h5 h6 ⊢
      exact Sat.ok ⟨⟨⟨hn1, hn2⟩, ⟨h2, h3⟩⟩, by simp only; omega, by simp only; omega⟩
    · split
      · refine Sat.bind (sat_short b _ readBound (by omega)) fun _ _ => ?_
        refine Sat.bind (sat_short b _ readBound (by omega)) fun _ _ => ?_
        refine Sat.bind (sat_short b _ readBound (by omega)) fun _ _ => ?_
        refine Sat.bind (sat_parseLabel b cap hcap _ (by simp only; omega)) fun r hr => ?_
        obtain ⟨n, s2⟩ := r
        obtain ⟨h1, h2, h3, h4, h5, h6⟩ := hr
        simp only at h1 h2 h3 h4 h5 h6 ⊢
        exact Sat.ok ⟨⟨⟨hn1, hn2⟩, ⟨h2, h3⟩⟩, by simp only; omega, by simp only; omega⟩
      · refine Sat.bind (sat_wr _ cap _ (by omega)) fun _ _ => ?_
        refine Sat.bind (sat_rdN b _ _ readBound (by omega)) fun _ _ => ?_
        split
        · split
          · trivial
          · refine Sat.bind (sat_wr _ cap _ (by omega)) fun _ _ => ?_
            refine Sat.bind (sat_rdN b _ _ readBound (by omega)) fun _ _ => ?_
            exact Sat.ok ⟨⟨⟨hn1, hn2⟩, trivial⟩, by simp only; omega, by simp only; omega⟩
        · split
          · split
            · trivial
            · refine Sat.bind (sat_wr _ cap _ (by omega)) fun _ _ => ?_
              refine Sat.bind (sat_rdN b _ _ readBound (by omega)) fun _ _ => ?_
              exact Sat.ok ⟨⟨⟨hn1, hn2⟩, trivial⟩, by simp only; omega, by simp only; omega⟩
          · exact Sat.ok ⟨⟨⟨hn1, hn2⟩, trivial⟩, by simp only; omega, by simp only; omega⟩

theorem sat_parseRrs (b : RBuf) (cap : Nat) (hcap : 65536 ≤ cap) : ∀ n slot s,
    s.pos ≤ 90111 → slot + 64 * n ≤ s.len →
    Sat (b.size < readBound) (parseRrs b cap slot n s)
      (fun r => (∀ x ∈ r.1, x.NamesOk) ∧ r.2.pos ≤ 90111 ∧ s.len ≤ r.2.len) := by
  intro n
  induction n with
  | zero => intro slot s h1 _; exact Sat.ok ⟨by simp, h1, Nat.le_refl _⟩
  | succ n ih =>
    intro slot s h1 h2
    unfold parseRrs
    refine Sat.bind (sat_parseRr b cap slot hcap s h1 (by omega)) fun r hr => ?_
    obtain ⟨r, s1⟩ := r
    simp only at hr ⊢
    refine Sat.bind (ih (slot + 64) s1 (by omega) (by omega)) fun rs hrs => ?_
    obtain ⟨rs, s2⟩ := rs
    simp only at hrs ⊢
    refine Sat.ok ⟨?_, hrs.2.1, by simp only; omega⟩
    intro x hx
    rcases List.mem_cons.1 hx with rfl | hx
    · exact hr.1
    · exact hrs.1 x hx

theorem sat_parseQds (b : RBuf) (cap : Nat) (hcap : 65536 ≤ cap) : ∀ n slot s k,
    n + k ≤ 4095 → s.pos ≤ 65541 + 6 * k → slot + 16 * n ≤ s.len →
    Sat (b.size < readBound) (parseQds b cap slot n s)
      (fun r => (∀ x ∈ r.1, NameOk x.name) ∧ r.2.pos ≤ 90111 ∧ s.len ≤ r.2.len) := by
  have hrb : readBound = 90124 := rfl
  intro n
  induction n with
  | zero => intro slot s k hk h1 _; exact Sat.ok ⟨by simp, by simp only; omega, Nat.le_refl _⟩
  | succ n ih =>
    intro slot s k hk h1 h2
    unfold parseQds
    refine Sat.bind (sat_parseLabel b cap hcap s (by omega)) fun r hr => ?_
    obtain ⟨name, s1⟩ := r
    obtain ⟨g1, g2, g3, g4, g5, g6⟩ := hr
    simp only at g1 g2 g3 g4 g5 g6 ⊢
    refine Sat.bind (sat_wr _ cap _ (by omega)) fun _ _ => ?_
    refine Sat.bind (sat_short b _ readBound (by omega)) fun type _ => ?_
    refine Sat.bind (sat_short b _ readBound (by omega)) fun cls _ => ?_
    refine Sat.bind (ih (slot + 16) { s1 with pos := s1.pos + 4 } (k + 1) (by omega)
      (by simp only; omega) (by simp only; omega)) fun rs hrs => ?_
    obtain ⟨rs, s2⟩ := rs
    simp only at hrs ⊢
    refine Sat.ok ⟨?_, hrs.2.1, by simp only; omega⟩
    intro x hx
    rcases List.mem_cons.1 hx with rfl | hx
    · exact ⟨g2, g3⟩
    · exact hrs.1 x hx

theorem le_align8 (n : Nat) : n ≤ align8 n := by unfold align8; omega

/-- All names of a message are bounded C strings. -/
def Msg.NamesOk (m : Msg) : Prop :=
  (∀ q ∈ m.qd, NameOk q.name) ∧ (∀ r ∈ m.an, r.NamesOk) ∧ (∀ r ∈ m.ns, r.NamesOk) ∧
    (∀ r ∈ m.ar, r.NamesOk)

theorem sat_parseBody (b : RBuf) (cap : Nat) (hcap : 65536 ≤ cap) (id : Nat) (h : Header) (c : Counts)
    (hq : c.qd ≤ 4095) :
    Sat (b.size < readBound) (parseBody b cap id h c) Msg.NamesOk := by
  unfold parseBody
  refine Sat.bind (sat_parseQds b cap hcap c.qd 0 _ 0 (by omega) (by simp only; omega)
    (by simp only; omega)) fun r hr => ?_
  obtain ⟨qd, s⟩ := r
  simp only at hr ⊢
  have a1 := le_align8 s.len
  have a2 := le_align8 (align8 s.len + 64 * c.an)
  have a3 := le_align8 (align8 (align8 s.len + 64 * c.an) + 64 * c.ns)
  refine Sat.bind (sat_parseRrs b cap hcap c.an _ _ (by simp only; omega) (by simp only; omega)) fun r1 h1 => ?_
  obtain ⟨an, s1⟩ := r1
  simp only at h1 ⊢
  refine Sat.bind (sat_parseRrs b cap hcap c.ns _ _ (by omega) (by omega)) fun r2 h2 => ?_
  obtain ⟨ns, s2⟩ := r2
  simp only at h2 ⊢
  refine Sat.bind (sat_parseRrs b cap hcap c.ar _ _ (by omega) (by omega)) fun r3 h3 => ?_
  obtain ⟨ar, s3⟩ := r3
  simp only at h3 ⊢
  exact Sat.ok ⟨hr.1, h1.1, h2.1, h3.1⟩

theorem sat_messageParse (b : RBuf) (cap : Nat) (hcap : 65536 ≤ cap) :
    Sat (b.size < readBound) (messageParse b cap) Msg.NamesOk := by
  have hrb : readBound = 90124 := rfl
  have hmp : maxPacketLen = 65535 := rfl
  unfold messageParse
  refine Sat.bind (sat_short b _ readBound (by omega)) fun _ _ => ?_
  refine Sat.bind (sat_rd b _ readBound (by omega)) fun _ _ => ?_
  refine Sat.bind (sat_rd b _ readBound (by omega)) fun _ _ => ?_
  refine Sat.bind (sat_short b _ readBound (by omega)) fun qd _ => ?_
  split
  · trivial
  · refine Sat.bind (sat_short b _ readBound (by omega)) fun an _ => ?_
    split
    · trivial
    · refine Sat.bind (sat_short b _ readBound (by omega)) fun ns _ => ?_
      split
      · trivial
      · refine Sat.bind (sat_short b _ readBound (by omega)) fun ar _ => ?_
        split
        · trivial
        · exact sat_parseBody b cap hcap _ _ _ (by simp only; omega)

end Mdns
