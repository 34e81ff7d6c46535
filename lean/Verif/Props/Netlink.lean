import Verif.Model.Netlink
import Verif.Lemmas.Util

/-!
# C53: netlink events
-/

namespace Mdns.Netlink

/-! ### Specification -/

/-- A netlink message: its type, ten more header bytes, and the payload. -/
structure Msg where
  type : Nat
  header : Bytes
  payload : Bytes

/-- What the kernel sends: types are 16 bit, the payload is padded to 4 bytes. -/
structure Msg.Ok (m : Msg) : Prop where
  type : m.type < 65536
  header : m.header.length = 10
  payload : m.payload.length % 4 = 0

/-- The bytes of a message (`struct nlmsghdr`, little endian). -/
def Msg.bytes (m : Msg) : Bytes :=
  let n := 16 + m.payload.length
  [UInt8.ofNat n, UInt8.ofNat (n / 256), UInt8.ofNat (n / 65536), UInt8.ofNat (n / 16777216),
    UInt8.ofNat m.type, UInt8.ofNat (m.type / 256)] ++ m.header ++ m.payload

/-- A link or address event. -/
def Msg.IsEvent (m : Msg) : Prop := m.type = 16 ∨ m.type = 17 ∨ m.type = 20 ∨ m.type = 21

/-- A datagram: messages one after the other. -/
def datagram (ms : List Msg) : Bytes := ms.flatMap Msg.bytes

/-- Bytes that are no message: too short for a header, or the length in the header
is less than that of the header or more than there is. -/
def NoMsg : Bytes → Prop
  | b0 :: b1 :: b2 :: b3 :: rest =>
    let n := b0.toNat + 256 * b1.toNat + 65536 * b2.toNat + 16777216 * b3.toNat
    rest.length + 4 < 16 ∨ n < 16 ∨ rest.length + 4 < n
  | _ => True

/-! ### Proofs -/

theorem getD_append_left (a b : Bytes) (i : Nat) (h : i < a.length) : (a ++ b).getD i 0 = a.getD i 0 := by
  simp [List.getD, List.getElem?_append_left h]

theorem getD_at (pre m post : Bytes) (i : Nat) (h : i < m.length) :
    (pre ++ m ++ post).getD (pre.length + i) 0 = m.getD i 0 := by
  rw [List.append_assoc]
  simp only [List.getD]
  rw [List.getElem?_append_right (by omega), Nat.add_sub_cancel_left, List.getElem?_append_left h]

theorem bytes_length (m : Msg) (h : m.Ok) : m.bytes.length = 16 + m.payload.length := by
  have := h.header
  simp [Msg.bytes]; omega

theorem relevant_iff (m : Msg) : relevant m.type = true ↔ m.IsEvent := by
  simp [relevant, Msg.IsEvent, or_assoc]

theorem msg_fields (pre post : Bytes) (m : Msg) (h : m.Ok) (hl : 16 + m.payload.length < 2 ^ 32) :
    msgLen (pre ++ m.bytes ++ post) pre.length = 16 + m.payload.length ∧
    msgType (pre ++ m.bytes ++ post) pre.length = m.type := by
  have hb := bytes_length m h
  have ht := h.type
  have g : ∀ i, i < 16 → (pre ++ m.bytes ++ post).getD (pre.length + i) 0 = m.bytes.getD i 0 :=
    fun i hi => getD_at _ _ _ _ (by omega)
  have g0 := g 0 (by omega)
  rw [Nat.add_zero] at g0
  unfold msgLen msgType
  rw [g0, g 1 (by omega), g 2 (by omega), g 3 (by omega), g 4 (by omega), g 5 (by omega)]
  simp only [Msg.bytes, List.cons_append, List.getD_cons_zero, List.getD_cons_succ, UInt8.toNat_ofNat']
  omega

theorem messages_nomsg (tail pre post : Bytes) (ht : NoMsg tail) (n : Nat) (ch : Bool)
    (hp : pre.length + tail.length ≤ bufSize) :
    messages (pre ++ tail ++ post) (n + 1) pre.length tail.length ch = .ok ch := by
  rw [messages]
  by_cases hl : tail.length < 16
  · rw [if_pos hl]
  rw [if_neg hl, if_neg (by omega)]
  match tail, ht, hl, hp with
  | b0 :: b1 :: b2 :: b3 :: rest, ht, hl, hp =>
    have g := fun i hi => getD_at pre (b0 :: b1 :: b2 :: b3 :: rest) post i hi
    have g0 := g 0 (by simp)
    rw [Nat.add_zero] at g0
    have hlen : msgLen (pre ++ (b0 :: b1 :: b2 :: b3 :: rest) ++ post) pre.length =
        b0.toNat + 256 * b1.toNat + 65536 * b2.toNat + 16777216 * b3.toNat := by
      unfold msgLen
      rw [g0, g 1 (by simp), g 2 (by simp), g 3 (by simp)]
      rfl
    simp only [NoMsg, List.length_cons] at ht hl ⊢
    simp only [hlen]
    rw [if_pos (by omega)]
  | [], _, hl, _ => simp at hl
  | [_], _, hl, _ => simp at hl
  | [_, _], _, hl, _ => simp at hl
  | [_, _, _], _, hl, _ => simp at hl

theorem messages_ok (ms : List Msg) (hms : ∀ m ∈ ms, m.Ok) (tail : Bytes) (ht : NoMsg tail) :
    ∀ (pre post : Bytes) (n : Nat) (ch : Bool),
      (datagram ms).length < n * 16 → pre.length + (datagram ms ++ tail).length ≤ bufSize →
      messages (pre ++ (datagram ms ++ tail) ++ post) n pre.length (datagram ms ++ tail).length ch =
        .ok (ch || ms.any (fun m => relevant m.type)) := by
  induction ms with
  | nil =>
    intro pre post n ch hn hp
    obtain ⟨k, rfl⟩ : ∃ k, n = k + 1 := ⟨n - 1, by omega⟩
    simpa [datagram] using messages_nomsg tail pre post ht k ch (by simpa [datagram] using hp)
  | cons m ms ih =>
    intro pre post n ch hn hp
    have hm := hms m (by simp)
    have hb := bytes_length m hm
    have e : datagram (m :: ms) = m.bytes ++ datagram ms := by simp [datagram]
    rw [e] at hn hp ⊢
    rw [List.append_assoc m.bytes] at hp ⊢
    rw [List.length_append, hb] at hn hp
    rw [List.length_append, hb]
    generalize hd : datagram ms ++ tail = dt at ih hp ⊢
    unfold bufSize at hp
    have hpad := hm.payload
    obtain ⟨k, rfl⟩ : ∃ k, n = k + 1 := ⟨n - 1, by omega⟩
    have e2 : pre ++ (m.bytes ++ dt) ++ post = pre ++ m.bytes ++ (dt ++ post) := by simp
    have hf := msg_fields pre (dt ++ post) m hm (by omega)
    have hal : align (16 + m.payload.length) = 16 + m.payload.length := by
      unfold align; omega
    rw [e2, messages]
    simp only [hf.1, hf.2, hal, bufSize]
    rw [if_neg (by omega), if_neg (by omega), if_neg (by omega), if_neg (by omega)]
    have e3 : (16 + m.payload.length + dt.length + 2 ^ 64 - (16 + m.payload.length)) % 2 ^ 64 =
        dt.length := by omega
    rw [e3]
    have := ih (fun m hm => hms m (by simp [hm])) (pre ++ m.bytes) post k (ch || relevant m.type)
      (by omega) (by rw [List.length_append, hb]; unfold bufSize; omega)
    rw [List.length_append, hb] at this
    have e4 : pre ++ m.bytes ++ dt ++ post = pre ++ m.bytes ++ (dt ++ post) := by simp
    rw [e4] at this
    rw [this]
    simp [Bool.or_assoc]

/-- What `recv` gives: an interruption, or a datagram of messages followed by bytes
that are no message. -/
def received (r : Option (List Msg × Bytes)) : Option Bytes := r.map fun d => datagram d.1 ++ d.2

/-- **C53.** Whatever datagrams the messages come in, whatever is left in the
buffer, and however often `recv` is interrupted: if everything could be read, the
result is 1 if one of the messages is a link or address event and 0 if not; it is
1 if the kernel dropped messages, and -1 if the socket failed.  A datagram is read
up to the first bytes that are no message.  Datagrams have at most 4096 bytes, and
their messages are padded. -/
theorem C53_events_partial (buf : Bytes) (rs : List (Option (List Msg × Bytes))) (s : Stop)
    (hm : ∀ ms t, some (ms, t) ∈ rs → (∀ m ∈ ms, m.Ok) ∧ NoMsg t ∧ (datagram ms ++ t).length ≤ 4096) :
    ∃ r, read buf false (rs.map received) s = .ok r ∧
      (s = .again → (r = 1 ∨ r = 0) ∧ (r = 1 ↔ ∃ ms t m, some (ms, t) ∈ rs ∧ m ∈ ms ∧ m.IsEvent)) ∧
      (s = .nobufs → r = 1) ∧ (s = .error → r = -1) := by
  suffices H : ∀ (ch : Bool) (buf : Bytes), ∃ r, read buf ch (rs.map received) s = .ok r ∧
      (s = .again → (r = 1 ∨ r = 0) ∧ (r = 1 ↔ ch = true ∨ ∃ ms t m, some (ms, t) ∈ rs ∧ m ∈ ms ∧ m.IsEvent)) ∧
      (s = .nobufs → r = 1) ∧ (s = .error → r = -1) by
    simpa using H false buf
  induction rs with
  | nil =>
    intro ch buf
    cases s
    · exact ⟨_, rfl, by cases ch <;> simp, by simp, by simp⟩
    · exact ⟨_, rfl, by simp, by simp, by simp⟩
    · exact ⟨_, rfl, by simp, by simp, by simp⟩
  | cons x rs ih =>
    have ih := ih (fun ms t h => hm ms t (by simp [h]))
    intro ch buf
    cases x with
    | none =>
      obtain ⟨r, h1, h2, h3⟩ := ih ch buf
      refine ⟨r, h1, fun e => ?_, h3⟩
      simpa using h2 e
    | some d =>
      obtain ⟨ms, t⟩ := d
      obtain ⟨hok, hno, hlen⟩ := hm ms t (by simp)
      have ht : (datagram ms ++ t).take bufSize = datagram ms ++ t := List.take_of_length_le hlen
      obtain ⟨r, h1, h2, h3⟩ := ih (ch || ms.any (fun m => relevant m.type))
        ((datagram ms ++ t) ++ buf.drop (datagram ms ++ t).length)
      have hmsg := messages_ok ms hok t hno [] (buf.drop (datagram ms ++ t).length) (bufSize + 1) ch
        (by rw [List.length_append] at hlen; unfold bufSize; omega)
        (by rw [List.length_nil, Nat.zero_add]; exact hlen)
      refine ⟨r, ?_, fun e => ?_, h3⟩
      · simp only [List.map_cons, received, Option.map_some, read, ht]
        simp only [List.nil_append, List.length_nil] at hmsg
        rw [hmsg]
        exact h1
      · refine ⟨(h2 e).1, ?_⟩
        rw [(h2 e).2, Bool.or_eq_true, List.any_eq_true]
        constructor
        · rintro ((h | ⟨m, hm', hr⟩) | ⟨ms', t', m, h, hm', hev⟩)
          · exact .inl h
          · exact .inr ⟨ms, t, m, by simp, hm', (relevant_iff m).1 hr⟩
          · exact .inr ⟨ms', t', m, by simp [h], hm', hev⟩
        · rintro (h | ⟨ms', t', m, h, hm', hev⟩)
          · exact .inl (.inl h)
          · simp only [List.mem_cons, Option.some.injEq, Prod.mk.injEq] at h
            rcases h with ⟨rfl, rfl⟩ | h
            · exact .inl (.inr ⟨m, hm', (relevant_iff m).2 hev⟩)
            · exact .inr ⟨ms', t', m, h, hm', hev⟩

/-- The claim fails for a larger datagram: what does not fit is lost. -/
theorem C53_large_counterexample : ∃ ms : List Msg, (∀ m ∈ ms, m.Ok) ∧ (∃ m ∈ ms, m.IsEvent) ∧
    ∀ buf, read buf false [some (datagram ms)] .again = .ok 0 := by
  obtain ⟨filler, hf, hfl⟩ : ∃ m : Msg, m.Ok ∧ m.type = 3 ∧ m.payload.length = 4080 :=
    ⟨⟨3, List.replicate 10 0, List.replicate 4080 0⟩,
      ⟨by decide, List.length_replicate, by rw [List.length_replicate]⟩, rfl, List.length_replicate⟩
  let ev : Msg := ⟨16, List.replicate 10 0, []⟩
  have hl : (datagram [filler]).length = 4096 := by
    have : datagram [filler] = filler.bytes := by simp [datagram]
    rw [this, bytes_length filler hf, hfl.2]
  refine ⟨[filler, ev], ?_, ⟨ev, by simp, .inl rfl⟩, fun buf => ?_⟩
  · intro m hm
    simp only [List.mem_cons, List.not_mem_nil, or_false] at hm
    rcases hm with rfl | rfl
    · exact hf
    · exact ⟨by decide, by simp [ev], by simp [ev]⟩
  · have e : datagram [filler, ev] = datagram [filler] ++ ev.bytes := by simp [datagram]
    have ht : (datagram [filler, ev]).take bufSize = datagram [filler] := by
      rw [e]; exact List.take_left' (by rw [hl]; rfl)
    have hm := messages_ok [filler] (by intro m hm; rw [List.mem_singleton.1 hm]; exact hf) [] trivial []
      (buf.drop (datagram [filler]).length) (bufSize + 1) false (by rw [hl]; decide)
      (by rw [List.append_nil, hl]; decide)
    simp only [List.append_nil, List.nil_append, List.length_nil] at hm
    simp only [read, ht]
    rw [hm]
    simp [hfl.1, relevant]

/-- A message whose length is not a multiple of 4 at the end of a datagram makes
the loop go on in what is left in the buffer, or beyond it: the remaining length
wraps. -/
theorem C53_unpadded_counterexample : ∃ (buf d : Bytes), buf.length = bufSize ∧ d.length = 17 ∧
    read buf false [some d] .again = .oob := by
  refine ⟨List.replicate 20 0 ++ [0xEC, 0x0F, 0, 0] ++ List.replicate 4072 0, 17 :: List.replicate 16 0, ?_, ?_, ?_⟩
  · rw [List.length_append, List.length_append, List.length_replicate, List.length_replicate]; rfl
  · decide
  · decide +kernel

/-- Two datagrams with an interruption in between; the second has an event, and a
message that is cut off. -/
example : ∃ r, read [] false ([some ([⟨3, List.replicate 10 0, []⟩], []), none,
      some ([⟨3, List.replicate 10 0, [1, 2, 3, 4]⟩, ⟨20, List.replicate 10 0, []⟩],
        20 :: List.replicate 15 0)].map received) .again
        = .ok r ∧ r = 1 :=
  ⟨1, by decide +kernel, rfl⟩

/-- An event that is cut off does not count, nor does one behind bytes that are no
message. -/
example : NoMsg ([20, 0, 0, 0, 16, 0] ++ List.replicate 10 0) ∧
    read [] false [some ([20, 0, 0, 0, 16, 0] ++ List.replicate 10 0)] .again = .ok 0 :=
  ⟨.inr (.inr (by decide)), by decide +kernel⟩

end Mdns.Netlink
