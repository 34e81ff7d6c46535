import Verif.Lemmas.Builder
import Verif.Props.Wire
import Verif.Props.ParserSafety

/-!
# C07 and C10: header fields and packet size
-/

namespace Mdns

/-! ### C10 -/

/-- Spec: the most bytes one call may add. -/
def maxCost : BOp → Nat
  | .qd .. => 256 + 4
  | .rr .. => 256 + 8
  | .long _ => 6
  | .ipv4 _ => 6
  | .ipv6 _ => 18
  | .name _ => 2 + 256
  | .srv .. => 2 + 6 + 256
  | .raw d => 2 + d.length

/-- **C10.** Every call, with any names, appends at most `maxCost` bytes and leaves
all bytes appended before unchanged. -/
theorem C10_append_only (m : Builder) (op : BOp) :
    ∃ added, (bstep m op).pkt = m.pkt ++ added ∧ added.length ≤ maxCost op := by
  cases op with
  | qd n t c =>
    obtain ⟨out, h1, _, h3⟩ := host_pkt { m with qd := m.qd + 1 } n
    refine ⟨out ++ putShort t ++ putShort c, ?_, ?_⟩
    · simp [bstep, messageQd, Builder.put, h1]
    · simp only [List.length_append, putShort, List.length_cons, List.length_nil, maxCost]; omega
  | rr s n t c l =>
    have gen : ∀ m' : Builder, m'.pkt = m.pkt → ∃ added, (rrAppend m' n t c l).pkt = m.pkt ++ added ∧
        added.length ≤ 256 + 8 := by
      intro m' hm
      obtain ⟨out, h1, _, h3⟩ := host_pkt m' n
      refine ⟨out ++ putShort t ++ putShort c ++ putLong l, ?_, ?_⟩
      · simp [rrAppend, Builder.put, h1, hm]
      · simp only [List.length_append, putShort, putLong, List.length_cons, List.length_nil]; omega
    cases s <;> exact gen _ rfl
  | long l => exact ⟨putShort 4 ++ putLong l, by simp [bstep, rdataLong, Builder.put], by simp [putShort, putLong, maxCost]⟩
  | ipv4 a => exact ⟨putShort 4 ++ a.toList, by simp [bstep, rdataIpv4, Builder.put], by simp [putShort, maxCost]⟩
  | ipv6 a => exact ⟨putShort 16 ++ a.toList, by simp [bstep, rdataIpv6, Builder.put], by simp [putShort, maxCost]⟩
  | name n =>
    obtain ⟨out, _, h2, h3⟩ := rdataName_pkt m n
    refine ⟨putShort out.length ++ out, by simp [bstep, h3], ?_⟩
    simp only [List.length_append, putShort, List.length_cons, List.length_nil, maxCost]; omega
  | srv p w o n =>
    obtain ⟨out, _, h2, h3⟩ := rdataSrv_pkt m p w o n
    refine ⟨putShort (out.length + 6) ++ (putShort p ++ putShort w ++ putShort o ++ out), by simp [bstep, h3], ?_⟩
    simp only [List.length_append, putShort, List.length_cons, List.length_nil, maxCost]; omega
  | raw d =>
    simp only [bstep, rdataRaw]
    split
    · exact ⟨putShort 0, rfl, by simp [putShort, maxCost]⟩
    · exact ⟨putShort d.length ++ d, by simp [Builder.put], by simp [putShort, maxCost]; omega⟩

/-- **C10.** `message_packet_len` is the length of the packet `message_packet`
returns, and grows by at most the sum of the costs. -/
theorem C10_packet_length (ops : List BOp) :
    packetLen (brun {} ops) = (messagePacket (brun {} ops)).length ∧
    12 ≤ packetLen (brun {} ops) ∧
    packetLen (brun {} ops) ≤ 12 + (ops.map maxCost).sum := by
  have gen : ∀ (ops : List BOp) (m : Builder), m.pkt.length ≤ (brun m ops).pkt.length ∧
      (brun m ops).pkt.length ≤ m.pkt.length + (ops.map maxCost).sum := by
    intro ops
    induction ops with
    | nil => intro m; simp [brun]
    | cons op ops ih =>
      intro m
      obtain ⟨added, h1, h2⟩ := C10_append_only m op
      have := ih (bstep m op)
      rw [h1, List.length_append] at this
      simp only [brun, List.foldl_cons, List.map_cons, List.sum_cons] at this ⊢
      omega
  have h := gen ops {}
  have h12 : ({} : Builder).pkt.length = 12 := rfl
  rw [h12] at h
  refine ⟨?_, h.1, h.2⟩
  simp only [packetLen, messagePacket, headerBytes, List.length_append, List.length_drop, putShort,
    flagBytes, List.length_cons, List.length_nil]
  omega

example : packetLen (brun {} [.qd [0x61] 1 1, .qd [0x61] 1 1]) = 12 + 7 + 6 := by decide +kernel

/-! ### C07 -/

/-- Spec: the number of calls that append to each section. -/
def qdCalls (ops : List BOp) : Nat := ops.countP fun | .qd .. => true | _ => false
def rrCalls (s : Section) (ops : List BOp) : Nat := ops.countP fun | .rr s' .. => s' == s | _ => false

theorem bstep_counts (m : Builder) (op : BOp) :
    (bstep m op).qd = m.qd + qdCalls [op] ∧ (bstep m op).an = m.an + rrCalls .an [op] ∧
    (bstep m op).ns = m.ns + rrCalls .ns [op] ∧ (bstep m op).ar = m.ar + rrCalls .ar [op] ∧
    (bstep m op).id = m.id ∧ (bstep m op).header = m.header := by
  cases op with
  | qd n t c =>
    have := host_fields { m with qd := m.qd + 1 } n
    simpa [bstep, messageQd, Builder.put, qdCalls, rrCalls] using this
  | rr s n t c l =>
    cases s with
    | an =>
      have := host_fields { m with an := m.an + 1 } n
      simpa [bstep, messageRr, rrAppend, Builder.put, qdCalls, rrCalls, List.countP_cons] using this
    | ns =>
      have := host_fields { m with ns := m.ns + 1 } n
      simpa [bstep, messageRr, rrAppend, Builder.put, qdCalls, rrCalls, List.countP_cons] using this
    | ar =>
      have := host_fields { m with ar := m.ar + 1 } n
      simpa [bstep, messageRr, rrAppend, Builder.put, qdCalls, rrCalls, List.countP_cons] using this
  | long l => simp [bstep, rdataLong, Builder.put, qdCalls, rrCalls]
  | ipv4 a => simp [bstep, rdataIpv4, Builder.put, qdCalls, rrCalls]
  | ipv6 a => simp [bstep, rdataIpv6, Builder.put, qdCalls, rrCalls]
  | name n =>
    have := host_fields (m.put [0, 0]) n
    simpa [bstep, rdataName, Builder.put, qdCalls, rrCalls] using this
  | srv p w o n =>
    have := host_fields ((((m.put [0, 0]).put (putShort p)).put (putShort w)).put (putShort o)) n
    simpa [bstep, rdataSrv, Builder.put, qdCalls, rrCalls] using this
  | raw d =>
    simp only [bstep, rdataRaw]
    split <;> simp [Builder.put, qdCalls, rrCalls]

theorem brun_counts (ops : List BOp) : ∀ m : Builder,
    (brun m ops).qd = m.qd + qdCalls ops ∧ (brun m ops).an = m.an + rrCalls .an ops ∧
    (brun m ops).ns = m.ns + rrCalls .ns ops ∧ (brun m ops).ar = m.ar + rrCalls .ar ops ∧
    (brun m ops).id = m.id ∧ (brun m ops).header = m.header := by
  induction ops with
  | nil => intro m; simp [brun, qdCalls, rrCalls]
  | cons op ops ih =>
    intro m
    have h1 := bstep_counts m op
    have h2 := ih (bstep m op)
    simp only [brun, List.foldl_cons] at h2 ⊢
    have hq : qdCalls (op :: ops) = qdCalls [op] + qdCalls ops := by
      simp [qdCalls, List.countP_cons]; omega
    have hr : ∀ s, rrCalls s (op :: ops) = rrCalls s [op] + rrCalls s ops := by
      intro s; simp [rrCalls, List.countP_cons]; omega
    refine ⟨?_, ?_, ?_, ?_, ?_, ?_⟩
    · rw [h2.1, h1.1, hq]; omega
    · rw [h2.2.1, h1.2.1, hr]; omega
    · rw [h2.2.2.1, h1.2.2.1, hr]; omega
    · rw [h2.2.2.2.1, h1.2.2.2.1, hr]; omega
    · rw [h2.2.2.2.2.1, h1.2.2.2.2.1]
    · rw [h2.2.2.2.2.2, h1.2.2.2.2.2]

/-- Bit fields have 4, 3 and 4 bits. -/
structure Header.InRange (h : Header) : Prop where
  opcode : h.opcode < 16
  z : h.z < 8
  rcode : h.rcode < 16

/-- The flag bytes, separately. -/
def flag0 (h : Header) : UInt8 := (flagBytes h).getD 0 0
def flag1 (h : Header) : UInt8 := (flagBytes h).getD 1 0

theorem flags_round_trip (h : Header) (hr : h.InRange) : readFlags (flag0 h) (flag1 h) = h := by
  obtain ⟨qr, op, aa, tc, rd, ra, z, rc⟩ := h
  obtain ⟨h1, h2, h3⟩ := hr
  simp only at h1 h2 h3
  have key : ∀ (op : Fin 16) (z : Fin 8) (rc : Fin 16) (qr aa tc rd ra : Bool),
      readFlags (flag0 ⟨qr, op, aa, tc, rd, ra, z, rc⟩) (flag1 ⟨qr, op, aa, tc, rd, ra, z, rc⟩)
        = ⟨qr, op, aa, tc, rd, ra, z, rc⟩ := by
    have k0 : ∀ (op : Fin 16) (qr aa tc rd : Bool),
        let f := flag0 ⟨qr, op, aa, tc, rd, false, 0, 0⟩
        (f &&& 0x80 != 0) = qr ∧ ((f &&& 0x78) >>> 3).toNat = op.val ∧ (f &&& 0x04 != 0) = aa ∧
        (f &&& 0x02 != 0) = tc ∧ (f &&& 0x01 != 0) = rd := by decide +kernel
    have k1 : ∀ (z : Fin 8) (rc : Fin 16) (ra : Bool),
        let f := flag1 ⟨false, 0, false, false, false, ra, z, rc⟩
        (f &&& 0x80 != 0) = ra ∧ ((f &&& 0x70) >>> 4).toNat = z.val ∧ (f &&& 0x0F).toNat = rc.val := by
      decide +kernel
    intro op z rc qr aa tc rd ra
    obtain ⟨a1, a2, a3, a4, a5⟩ := k0 op qr aa tc rd
    obtain ⟨b1, b2, b3⟩ := k1 z rc ra
    have e0 : flag0 ⟨qr, op, aa, tc, rd, ra, z, rc⟩ = flag0 ⟨qr, op, aa, tc, rd, false, 0, 0⟩ := rfl
    have e1 : flag1 ⟨qr, op, aa, tc, rd, ra, z, rc⟩ = flag1 ⟨false, 0, false, false, false, ra, z, rc⟩ := rfl
    rw [e0, e1]
    simp only [readFlags, a1, a2, a3, a4, a5, b1, b2, b3]
  exact key ⟨op, h1⟩ ⟨z, h2⟩ ⟨rc, h3⟩ qr aa tc rd ra

theorem parseQds_length (b : RBuf) (cap : Nat) : ∀ n slot s r, parseQds b cap slot n s = .ok r →
    r.1.length = n := by
  intro n
  induction n with
  | zero => intro slot s r h; simp [parseQds] at h; subst h; rfl
  | succ n ih =>
    intro slot s r h
    unfold parseQds at h
    simp only [bind, PRes.bind] at h
    repeat (split at h <;> try simp at h)
    rename_i heq
    subst h
    simp [ih _ _ _ heq]

theorem parseRrs_length (b : RBuf) (cap : Nat) : ∀ n slot s r, parseRrs b cap slot n s = .ok r →
    r.1.length = n := by
  intro n
  induction n with
  | zero => intro slot s r h; simp [parseRrs] at h; subst h; rfl
  | succ n ih =>
    intro slot s r h
    unfold parseRrs at h
    simp only [bind, PRes.bind] at h
    repeat (split at h <;> try simp at h)
    rename_i heq
    subst h
    simp [ih _ _ _ heq]

theorem bind_ok {α β : Type} {r : PRes α} {f : α → PRes β} {x : β} (h : (r >>= f) = .ok x) :
    ∃ a, r = .ok a ∧ f a = .ok x := by
  cases r with
  | ok a => exact ⟨a, rfl, h⟩
  | fail => cases h
  | oob => cases h
  | wub => cases h
  | hang => cases h

/-- What a successful parse says about the fixed header. -/
theorem parse_header (b : RBuf) (cap : Nat) (m : Msg) (h : messageParse b cap = .ok m) :
    b.short 0 = .ok m.id ∧ m.header = readFlags (b.at_ 2) (b.at_ 3) ∧
    b.short 4 = .ok m.qd.length ∧ b.short 6 = .ok m.an.length ∧ b.short 8 = .ok m.ns.length ∧
    b.short 10 = .ok m.ar.length := by
  unfold messageParse at h
  obtain ⟨id, hid, h⟩ := bind_ok h
  obtain ⟨f0, hf0, h⟩ := bind_ok h
  obtain ⟨f1, hf1, h⟩ := bind_ok h
  obtain ⟨qd, hqd, h⟩ := bind_ok h
  split at h
  · cases h
  · obtain ⟨an, han, h⟩ := bind_ok h
    split at h
    · cases h
    · obtain ⟨ns, hns, h⟩ := bind_ok h
      split at h
      · cases h
      · obtain ⟨ar, har, h⟩ := bind_ok h
        split at h
        · cases h
        · unfold parseBody at h
          obtain ⟨⟨qs, s0⟩, hqs, h⟩ := bind_ok h
          obtain ⟨⟨as, s1⟩, has, h⟩ := bind_ok h
          obtain ⟨⟨nss, s2⟩, hnss, h⟩ := bind_ok h
          obtain ⟨⟨ars, s3⟩, hars, h⟩ := bind_ok h
          cases h
          have e0 := parseQds_length _ _ _ _ _ _ hqs
          have e1 := parseRrs_length _ _ _ _ _ _ has
          have e2 := parseRrs_length _ _ _ _ _ _ hnss
          have e3 := parseRrs_length _ _ _ _ _ _ hars
          simp only at e0 e1 e2 e3
          simp only [e0, e1, e2, e3]
          refine ⟨hid, ?_, hqd, han, hns, har⟩
          unfold RBuf.rd at hf0 hf1
          split at hf0 <;> cases hf0
          split at hf1 <;> cases hf1
          rfl

/-- **C07.** If the finished packet is parsed successfully (in a buffer with
anything behind it), the id and all header bits are the ones that were set, and
each section has exactly as many entries as append calls were made for it. -/
theorem C07_header_round_trip (id : Nat) (h : Header) (ops : List BOp) (size : Nat) (post : Bytes)
    (m : Msg) (hid : id < 65536) (hh : h.InRange)
    (hq : qdCalls ops < 65536) (hc : ∀ s, rrCalls s ops < 65536)
    (hp : messageParse (RBuf.ofBytes size
      (messagePacket (brun { id := id, header := h } ops) ++ post)) structCap = .ok m) :
    m.id = id ∧ m.header = h ∧ m.qd.length = qdCalls ops ∧ m.an.length = rrCalls .an ops ∧
    m.ns.length = rrCalls .ns ops ∧ m.ar.length = rrCalls .ar ops := by
  obtain ⟨p1, p2, p3, p4, p5, p6⟩ := parse_header _ _ _ hp
  obtain ⟨c1, c2, c3, c4, c5, c6⟩ := brun_counts ops { id := id, header := h }
  simp only [Nat.zero_add] at c1 c2 c3 c4 c5 c6
  generalize brun { id := id, header := h } ops = bm at *
  -- the buffer is the header followed by something
  have hs10 : 10 + 2 ≤ size := by
    unfold RBuf.short at p6
    obtain ⟨_, hr0, p6⟩ := bind_ok p6
    obtain ⟨_, hr1, _⟩ := bind_ok p6
    unfold RBuf.rd at hr1
    split at hr1
    · rename_i hlt; exact hlt
    · cases hr1
  have split2 : ∀ (pre : Bytes) (v : Nat) (rest : Bytes),
      messagePacket bm ++ post = pre ++ putShort v ++ rest → v < 65536 → pre.length + 2 ≤ size →
      (RBuf.ofBytes size (messagePacket bm ++ post)).short pre.length = .ok v := by
    intro pre v rest he hv hl
    rw [he]
    exact (C01_short_round_trip size v pre rest hv hl).1
  have fl : flagBytes bm.header = [flag0 bm.header, flag1 bm.header] := rfl
  have shape : messagePacket bm ++ post = putShort bm.id ++ [flag0 bm.header, flag1 bm.header] ++
      putShort bm.qd ++ putShort bm.an ++ putShort bm.ns ++ putShort bm.ar ++ (bm.pkt.drop 12 ++ post) := by
    simp [messagePacket, headerBytes, fl]
  have r0 := split2 [] bm.id _ (by rw [shape]; simp only [List.append_assoc, List.nil_append]; rfl)
    (by rw [c5]; exact hid) (by simp only [List.length_nil]; omega)
  have r4 := split2 (putShort bm.id ++ [flag0 bm.header, flag1 bm.header]) bm.qd _
    (by rw [shape]; simp only [List.append_assoc]; rfl) (by rw [c1]; exact hq)
    (by simp only [List.length_append, putShort, List.length_cons, List.length_nil]; omega)
  have r6 := split2 (putShort bm.id ++ [flag0 bm.header, flag1 bm.header] ++ putShort bm.qd) bm.an _
    (by rw [shape]; simp only [List.append_assoc]; rfl) (by rw [c2]; exact hc _)
    (by simp only [List.length_append, putShort, List.length_cons, List.length_nil]; omega)
  have r8 := split2 (putShort bm.id ++ [flag0 bm.header, flag1 bm.header] ++ putShort bm.qd ++
      putShort bm.an) bm.ns _
    (by rw [shape]; simp only [List.append_assoc]; rfl) (by rw [c3]; exact hc _)
    (by simp only [List.length_append, putShort, List.length_cons, List.length_nil]; omega)
  have r10 := split2 (putShort bm.id ++ [flag0 bm.header, flag1 bm.header] ++ putShort bm.qd ++
      putShort bm.an ++ putShort bm.ns) bm.ar (bm.pkt.drop 12 ++ post)
    shape (by rw [c4]; exact hc _)
    (by simp only [List.length_append, putShort, List.length_cons, List.length_nil]; omega)
  have e0 : ([] : Bytes).length = 0 := rfl
  have e4 : (putShort bm.id ++ [flag0 bm.header, flag1 bm.header]).length = 4 := rfl
  have e6 : (putShort bm.id ++ [flag0 bm.header, flag1 bm.header] ++ putShort bm.qd).length = 6 := rfl
  have e8 : (putShort bm.id ++ [flag0 bm.header, flag1 bm.header] ++ putShort bm.qd ++
      putShort bm.an).length = 8 := rfl
  have e10 : (putShort bm.id ++ [flag0 bm.header, flag1 bm.header] ++ putShort bm.qd ++
      putShort bm.an ++ putShort bm.ns).length = 10 := rfl
  rw [e0] at r0; rw [e4] at r4; rw [e6] at r6; rw [e8] at r8; rw [e10] at r10
  rw [p1] at r0; rw [p3] at r4; rw [p4] at r6; rw [p5] at r8; rw [p6] at r10
  have f2 : (RBuf.ofBytes size (messagePacket bm ++ post)).at_ 2 = flag0 bm.header := by
    rw [shape]; rfl
  have f3 : (RBuf.ofBytes size (messagePacket bm ++ post)).at_ 3 = flag1 bm.header := by
    rw [shape]; rfl
  rw [f2, f3, flags_round_trip _ (by rw [c6]; exact hh)] at p2
  refine ⟨?_, by rw [p2, c6], ?_, ?_, ?_, ?_⟩
  · have := PRes.ok.inj r0; rw [this, c5]
  · have := PRes.ok.inj r4; rw [this, c1]
  · have := PRes.ok.inj r6; rw [this, c2]
  · have := PRes.ok.inj r8; rw [this, c3]
  · have := PRes.ok.inj r10; rw [this, c4]

/-- A packet that is parsed successfully, with a non-trivial header. -/
example : (match messageParse (RBuf.ofBytes recvSize (messagePacket (brun
      { id := 0x1234, header := { qr := true, opcode := 5, aa := true, rcode := 3 } }
      [.qd [0x61] 1 1, .rr .an [0x61] 1 1 10, .ipv4 (Vector.replicate 4 7)]) ++ [9])) structCap with
    | .ok m => (m.id, m.header, m.qd.length, m.an.length)
    | _ => (0, {}, 0, 0)) = (0x1234, { qr := true, opcode := 5, aa := true, rcode := 3 }, 1, 1) := by
  decide +kernel

/-- **C56.** Raw record data is added whole, preceded by its length, exactly when it ends
within the first 4096 bytes of the message; otherwise the record gets a zero length and
no data. Nothing already in the packet changes. -/
theorem C56_raw_data_limit (m : Builder) (data : Bytes) :
    ((rdataRaw m data).pkt = m.pkt ++ [UInt8.ofNat (data.length / 256), UInt8.ofNat data.length] ++ data
      ↔ m.pkt.length + data.length ≤ 4096 ∨ data = []) ∧
    (4096 < m.pkt.length + data.length → (rdataRaw m data).pkt = m.pkt ++ [0, 0]) := by
  unfold rdataRaw Builder.put putShort
  constructor
  · constructor
    · intro h
      by_cases hd : data = []
      · exact .inr hd
      · left
        rcases Nat.lt_or_ge 4096 (m.pkt.length + data.length) with hc | hc
        · rw [if_pos hc] at h
          have := congrArg List.length h
          simp only [List.length_append, List.length_cons, List.length_nil] at this
          exact absurd (List.length_eq_zero_iff.1 (by omega)) hd
        · exact hc
    · rintro (h | h)
      · rw [if_neg (by omega)]; simp [Nat.shiftRight_eq_div_pow]
      · subst h; split <;> simp
  · intro h
    rw [if_pos h]; simp

/-- Data that just fits and data that just does not. -/
example : (rdataRaw { pkt := List.replicate 4000 1 } (List.replicate 96 7)).pkt.length = 4098 ∧
    (rdataRaw { pkt := List.replicate 4000 1 } (List.replicate 97 7)).pkt.length = 4002 := by
  decide +kernel

end Mdns
