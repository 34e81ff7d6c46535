import Verif.Model.Wire

/-!
# Building packets, the writing half of `libmdnsd/1035.c`

`struct message` starts zeroed (callers `memset` it) and is filled front to
back, so `_packet` is represented by the bytes before the write cursor
`m->_buf`; everything behind the cursor reads as zero.
-/

namespace Mdns

/-- Header fields of `struct message`, `libmdnsd/1035.h:106-108`. -/
structure Header where
  qr : Bool := false
  opcode : Nat := 0
  aa : Bool := false
  tc : Bool := false
  rd : Bool := false
  ra : Bool := false
  z : Nat := 0
  rcode : Nat := 0
deriving DecidableEq, Repr, Inhabited

/-- The parts of `struct message` used while building, `libmdnsd/1035.h:103-120`.
`pkt` are the bytes of `_packet` before the cursor; the first twelve are the
header, filled in by `message_packet`.  `labels` are the offsets in `_packet`
of the entries of `_labels` (`_label` is its length). -/
structure Builder where
  id : Nat := 0
  header : Header := {}
  qd : Nat := 0
  an : Nat := 0
  ns : Nat := 0
  ar : Nat := 0
  pkt : Bytes := List.replicate 12 0
  labels : List Nat := []
deriving DecidableEq, Repr, Inhabited

/-- `MAX_NUM_LABELS`, `libmdnsd/1035.h:56`. -/
def maxNumLabels : Nat := 512

/-- A `char *` inside `_lmatch`: into the new name's buffer or into `_packet`.  `libmdnsd/1035.c:158`. -/
inductive LPtr where
  | lab (i : Nat)
  | pkt (i : Nat)
deriving DecidableEq, Repr

namespace LPtr

/-- Dereference; behind the cursor the packet is zero.  (A packet longer than
61440 bytes could make the C code read behind the structure here; the model
reads zero then.).  `libmdnsd/1035.c:163-191`. -/
def rd (lab pkt : Bytes) : LPtr → UInt8
  | .lab i => lab.getD i 0
  | .pkt i => pkt.getD i 0

/-- Pointer arithmetic, `libmdnsd/1035.c:182-188`. -/
def add (n : Nat) : LPtr → LPtr
  | .lab i => .lab (i + n)
  | .pkt i => .pkt (i + n)

end LPtr

/-- The comparison loop `libmdnsd/1035.c:181-184`. -/
def sameBytes (lab pkt : Bytes) (l1 l2 : LPtr) : Nat → Bool
  | 0 => true
  | n + 1 => (l1.add (n + 1)).rd lab pkt == (l2.add (n + 1)).rd lab pkt && sameBytes lab pkt l1 l2 n

/-- `_lmatch`, `libmdnsd/1035.c:158-196`.  `m->_buf` is the write cursor, i.e.
`pkt.length`: compression pointers are followed from there.  The recursion runs
on fuel; `none` means it ran out (proved impossible for the fuel used). -/
def lmatchF (lab pkt : Bytes) : Nat → LPtr → LPtr → Option Bool
  | 0, _, _ => none
  | fuel + 1, l1, l2 =>
    let b1 := l1.rd lab pkt
    let b2 := l2.rd lab pkt
    if isPtr b1 then
      lmatchF lab pkt fuel (.pkt (pkt.length + ldecomp b1 ((l1.add 1).rd lab pkt))) l2
    else if isPtr b2 then
      lmatchF lab pkt fuel l1 (.pkt (pkt.length + ldecomp b2 ((l2.add 1).rd lab pkt)))
    else if l1 = l2 then some true
    else if b1 ≠ b2 then some false
    else if b1 = 0 then some true
    else if ¬ sameBytes lab pkt l1 l2 b1.toNat then some false
    else
      let n1 := l1.add (b1.toNat + 1)
      let n2 := l2.add (b2.toNat + 1)
      if n1.rd lab pkt = 0 ∧ n2.rd lab pkt = 0 then some true
      else lmatchF lab pkt fuel n1 n2

/-- `_lmatch` with enough fuel.  `libmdnsd/1035.c:158-196`. -/
def lmatch (lab pkt : Bytes) (l1 l2 : LPtr) : Option Bool :=
  lmatchF lab pkt (lab.length + pkt.length + 1) l1 l2

/-- The first loop of `_host`, `libmdnsd/1035.c:207-228`: the name as labels.
`acc` is `label[0..last-1]`, `cur` is `label[last+1..x-1]`; the length byte
`label[last]` is written when the label ends, so `x = acc.length + 1 + cur.length`.
`none` is the early `return 0` for names that do not fit. -/
def mkLabel (acc cur : Bytes) : Bytes → Option Bytes
  | [] => finish
  | c :: rest =>
    if c = 0x2E then
      if rest = [] then finish
      else if acc.length + 1 + cur.length = 255 then none
      else mkLabel (acc ++ UInt8.ofNat cur.length :: cur) [] rest
    else if acc.length + 1 + cur.length = 255 then none
    else mkLabel acc (cur ++ [c]) rest
where
  /-- `libmdnsd/1035.c:224-228`. -/
  finish : Option Bytes :=
    if acc.length + 1 + cur.length = 1 then some [0]
    else some (acc ++ UInt8.ofNat cur.length :: cur ++ [0])

/-- The double loop of `_host`, `libmdnsd/1035.c:230-245`: the bytes that will be
copied to the packet.  The outer loop runs on fuel (the buffer length). -/
def compressF (lab pkt : Bytes) (labels : List Nat) : Nat → Nat → Bytes
  | 0, _ => lab
  | fuel + 1, x =>
    let b := lab.getD x 0
    if b = 0 then lab
    else
      match labels.find? (fun o => lmatch lab pkt (.lab x) (.pkt o) == some true) with
      | some o => lab.take x ++ [(UInt8.ofNat (o >>> 8)) ||| 0xc0, UInt8.ofNat o]
      | none => if isPtr b then lab else compressF lab pkt labels fuel (x + b.toNat + 1)

/-- The last loop of `_host`, `libmdnsd/1035.c:252-258`: remember where each label
of the bytes `l`, now at offset `base`, starts. -/
def addLabelsF (l : Bytes) (base : Nat) : Nat → Nat → List Nat → List Nat
  | 0, _, labels => labels
  | fuel + 1, x, labels =>
    let b := l.getD x 0
    if b = 0 then labels
    else if ¬ labels.length < maxNumLabels then labels
    else if isPtr b then labels
    else addLabelsF l base fuel (x + b.toNat + 1) (labels ++ [base + x])

/-- `_host`, `libmdnsd/1035.c:198-261`: the new state and the value returned. -/
def host (m : Builder) (name : Bytes) : Builder × Nat :=
  match mkLabel [] [] name with
  | none => (m, 0)
  | some lab =>
    let out := compressF lab m.pkt m.labels lab.length 0
    ({ m with
        pkt := m.pkt ++ out
        labels := addLabelsF out m.pkt.length out.length 0 m.labels }, out.length)

/-- Appending plain bytes at the cursor.  For example `libmdnsd/1035.c:510-511`. -/
def Builder.put (m : Builder) (b : Bytes) : Builder := { m with pkt := m.pkt ++ b }

/-- `message_qd`, `libmdnsd/1035.c:428-436`.  The counts are `unsigned short` and
wrap when the header is written (`messagePacket`). -/
def messageQd (m : Builder) (name : Bytes) (type cls : Nat) : Builder :=
  ((host { m with qd := m.qd + 1 } name).1.put (putShort type)).put (putShort cls)

/-- `_rrappend`, `libmdnsd/1035.c:438-446`. -/
def rrAppend (m : Builder) (name : Bytes) (type cls ttl : Nat) : Builder :=
  (((host m name).1.put (putShort type)).put (putShort cls)).put (putLong ttl)

/-- The sections a resource record can be appended to.  `libmdnsd/1035.c:448-464`. -/
inductive Section where
  | an | ns | ar
deriving DecidableEq, Repr

/-- `message_an`, `message_ns`, `message_ar`, `libmdnsd/1035.c:448-464`. -/
def messageRr (m : Builder) (s : Section) (name : Bytes) (type cls ttl : Nat) : Builder :=
  match s with
  | .an => rrAppend { m with an := m.an + 1 } name type cls ttl
  | .ns => rrAppend { m with ns := m.ns + 1 } name type cls ttl
  | .ar => rrAppend { m with ar := m.ar + 1 } name type cls ttl

/-- `message_rdata_long`, `libmdnsd/1035.c:466-470`. -/
def rdataLong (m : Builder) (l : Nat) : Builder := (m.put (putShort 4)).put (putLong l)

/-- `message_rdata_ipv4`, `libmdnsd/1035.c:472-477`: four address bytes. -/
def rdataIpv4 (m : Builder) (a : Vector UInt8 4) : Builder := (m.put (putShort 4)).put a.toList

/-- `message_rdata_ipv6`, `libmdnsd/1035.c:479-484`: sixteen address bytes. -/
def rdataIpv6 (m : Builder) (a : Vector UInt8 16) : Builder := (m.put (putShort 16)).put a.toList

/-- Overwrite the two bytes at offset `o` with `short2net(v)`.  `libmdnsd/1035.c:491`, `502`. -/
def patchShort (pkt : Bytes) (o v : Nat) : Bytes :=
  pkt.take o ++ putShort v ++ pkt.drop (o + 2)

/-- `message_rdata_name`, `libmdnsd/1035.c:486-492`: two bytes are skipped, the
name is appended, and its length is written to the two bytes afterwards. -/
def rdataName (m : Builder) (name : Bytes) : Builder :=
  let o := m.pkt.length
  let (m', n) := host (m.put [0, 0]) name
  { m' with pkt := patchShort m'.pkt o n }

/-- `message_rdata_srv`, `libmdnsd/1035.c:494-503`. -/
def rdataSrv (m : Builder) (priority weight port : Nat) (name : Bytes) : Builder :=
  let o := m.pkt.length
  let (m', n) := host ((((m.put [0, 0]).put (putShort priority)).put (putShort weight)).put
    (putShort port)) name
  { m' with pkt := patchShort m'.pkt o (n + 6) }

/-- `message_rdata_raw`, `libmdnsd/1035.c:505-512`: the data is dropped if the
packet would grow beyond 4096 bytes. -/
def rdataRaw (m : Builder) (rdata : Bytes) : Builder :=
  if m.pkt.length + rdata.length > 4096 then m.put (putShort 0)
  else (m.put (putShort rdata.length)).put rdata

/-- The two flag bytes, `libmdnsd/1035.c:521-536`; `opcode`, `z` and `rcode` are
bit fields of 4, 3 and 4 bits. -/
def flagBytes (h : Header) : Bytes :=
  let f0 : UInt8 := 0
  let f0 := if h.qr then f0 ||| 0x80 else f0
  let f0 := if h.opcode ≠ 0 then f0 ||| UInt8.ofNat (h.opcode <<< 3) else f0
  let f0 := if h.aa then f0 ||| 0x04 else f0
  let f0 := if h.tc then f0 ||| 0x02 else f0
  let f0 := if h.rd then f0 ||| 0x01 else f0
  let f1 : UInt8 := 0
  let f1 := if h.ra then f1 ||| 0x80 else f1
  let f1 := if h.z ≠ 0 then f1 ||| UInt8.ofNat (h.z <<< 4) else f1
  let f1 := if h.rcode ≠ 0 then f1 ||| UInt8.ofNat h.rcode else f1
  [f0, f1]

/-- The twelve header bytes written by `message_packet`, `libmdnsd/1035.c:514-546`. -/
def headerBytes (m : Builder) : Bytes :=
  putShort m.id ++ flagBytes m.header ++ putShort m.qd ++ putShort m.an ++ putShort m.ns ++
    putShort m.ar

/-- `message_packet`, `libmdnsd/1035.c:514-546`: the finished packet. -/
def messagePacket (m : Builder) : Bytes := headerBytes m ++ m.pkt.drop 12

/-- `message_packet_len`, `libmdnsd/1035.c:548-554`. -/
def packetLen (m : Builder) : Nat := m.pkt.length

/-! ### Sequences of calls -/

/-- One call of the building API.  `libmdnsd/1035.c:428-512`.  The functions that add data expect that a question or record was added before (else `_buf` is NULL); the daemon always does so. -/
inductive BOp where
  | qd (name : Bytes) (type cls : Nat)
  | rr (s : Section) (name : Bytes) (type cls ttl : Nat)
  | long (l : Nat)
  | ipv4 (a : Vector UInt8 4)
  | ipv6 (a : Vector UInt8 16)
  | name (n : Bytes)
  | srv (priority weight port : Nat) (n : Bytes)
  | raw (d : Bytes)
deriving Repr, DecidableEq

/-- What the call does, `libmdnsd/1035.c:428-512`. -/
def bstep (m : Builder) : BOp → Builder
  | .qd n t c => messageQd m n t c
  | .rr s n t c l => messageRr m s n t c l
  | .long l => rdataLong m l
  | .ipv4 a => rdataIpv4 m a
  | .ipv6 a => rdataIpv6 m a
  | .name n => rdataName m n
  | .srv p w o n => rdataSrv m p w o n
  | .raw d => rdataRaw m d

/-- Calls one after another, as for example `libmdnsd/mdnsd.c:1263-1280` makes them. -/
def brun (m : Builder) (ops : List BOp) : Builder := ops.foldl bstep m

end Mdns
