import Verif.Model.Rx
import Verif.Lemmas.Parser

/-!
# C04, C05, C06, C09: safety of `message_parse` for arbitrary buffer contents
-/

namespace Mdns

/-- **C04.** Parsing ends, whatever the buffer contains and however long it is. -/
theorem C04_parse_terminates (b : RBuf) : messageParse b structCap ≠ .hang := by
  have := sat_messageParse b structCap (by decide)
  intro h
  rw [h] at this
  exact this

/-- **C05.** Parsing never writes outside `struct message`. -/
theorem C05_parse_writes_inside (b : RBuf) : messageParse b structCap ≠ .wub := by
  have := sat_messageParse b structCap (by decide)
  intro h
  rw [h] at this
  exact this

/-- **C09.** Every name handed out is a C string of at most 256 characters. -/
theorem C09_parsed_names_bounded (b : RBuf) (m : Msg) (h : messageParse b structCap = .ok m) :
    (∀ q ∈ m.qd, q.name.length ≤ 256 ∧ 0 ∉ q.name) ∧
    (∀ r ∈ m.an ++ m.ns ++ m.ar, r.name.length ≤ 256 ∧ 0 ∉ r.name ∧
      (∀ n, r.known = .name n → n.length ≤ 256 ∧ 0 ∉ n) ∧
      (∀ p w o n, r.known = .srv p w o n → n.length ≤ 256 ∧ 0 ∉ n)) := by
  have hs := sat_messageParse b structCap (by decide)
  rw [h] at hs
  obtain ⟨h1, h2, h3, h4⟩ := hs
  refine ⟨h1, ?_⟩
  intro r hr
  have hr' : r.NamesOk := by
    simp only [List.mem_append] at hr
    rcases hr with (hr | hr) | hr
    · exact h2 r hr
    · exact h3 r hr
    · exact h4 r hr
  refine ⟨hr'.1.1, hr'.1.2, ?_, ?_⟩
  · intro n hn; have := hr'.2; rw [hn] at this; exact this
  · intro p w o n hn; have := hr'.2; rw [hn] at this; exact this

/-- **C06 (partial).** A buffer of 90124 readable bytes is never left, whatever it
contains: the parser may overrun the 65536 bytes it is given by at most 24588
bytes.  Missing from the full claim: reads do leave the real buffer, see
`C06_overread_counterexample`; for well-formed packets see `Props.Codec`. -/
theorem C06_parse_reads_bounded_partial (b : RBuf) (h : 90124 ≤ b.size) :
    messageParse b structCap ≠ .oob := by
  have := sat_messageParse b structCap (by decide)
  intro hc
  rw [hc] at this
  have h' : b.size < 90124 := this
  omega

/-! ### Witnesses -/

/-- A name of four long labels, 255 bytes on the wire. -/
def longName : Bytes :=
  63 :: List.replicate 63 0x61 ++ 63 :: List.replicate 63 0x61 ++ 63 :: List.replicate 63 0x61 ++
    61 :: List.replicate 61 0x61 ++ [0]

/-- 541 bytes: two questions with the same long name, then a TXT record with the
root name whose `rdlength` (64994) moves the cursor to the last byte of the
buffer, and a second record announced in the header but not present. -/
def overreadDatagram : Bytes :=
  [0, 0, 0, 0, 0, 2, 0, 2, 0, 0, 0, 0] ++ longName ++ [0, 16, 0, 1] ++ longName ++ [0, 16, 0, 1] ++
    [0, 0, 16, 0, 1, 0, 0, 0, 0, 0xFD, 0xE2]

/-- The full C06 is false: this datagram makes the parser read behind the 65536
byte receive buffer of the daemon. -/
theorem C06_overread_counterexample :
    overreadDatagram.length = 541 ∧
    messageParse (RBuf.ofBytes recvSize overreadDatagram) structCap = .oob := by
  constructor
  · decide +kernel
  · decide +kernel

/-- 75 bytes: 1023 answers announced, the first name is one label of 62 bytes. -/
def paddingDatagram : Bytes :=
  [0, 0, 0, 0, 0, 0, 0x03, 0xFF, 0, 0, 0, 0] ++ 62 :: List.replicate 62 0x61

/-- C05 is tight: the last byte of padding is written, one byte behind the
`_packet` array itself. -/
theorem C05_writes_padding_byte :
    messageParse (RBuf.ofBytes recvSize paddingDatagram) (structCap - 1) = .wub := by
  decide +kernel

/-- A self-referencing and a forward pointer: parsing ends. -/
example : messageParse (RBuf.ofBytes recvSize
    [0, 0, 0, 0, 0, 2, 0, 0, 0, 0, 0, 0, 0xC0, 12, 0, 1, 0, 1]) structCap = .fail := by
  decide +kernel

/-- A regular question is parsed: the hypothesis of C09 is met. -/
example : messageParse (RBuf.ofBytes recvSize
    [0, 7, 0, 0, 0, 1, 0, 0, 0, 0, 0, 0, 1, 0x61, 5, 0x6c, 0x6f, 0x63, 0x61, 0x6c, 0, 0, 1, 0, 1]) structCap
    = .ok ⟨7, {}, [⟨[0x61, 0x2E, 0x6c, 0x6f, 0x63, 0x61, 0x6c, 0x2E], 1, 1⟩], [], [], []⟩ := by
  decide +kernel

end Mdns
