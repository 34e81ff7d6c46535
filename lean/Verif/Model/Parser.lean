import Verif.Model.Wire
import Verif.Model.Builder

/-!
# Parsing packets, the reading half of `libmdnsd/1035.c`

Every read from the receive buffer and every write to the message structure is
checked; a check that fails is an outcome of its own.
-/

namespace Mdns

/-- The receive buffer: `size` readable bytes.  `libmdnsd/mdnsd.c:1919-1947`, `libmdnsd/1035.c:364`. -/
structure RBuf where
  size : Nat
  at_ : Nat → UInt8

/-- A datagram in a zero-filled buffer of the given size.  `libmdnsd/mdnsd.c:1919-1947`. -/
def RBuf.ofBytes (size : Nat) (d : Bytes) : RBuf := ⟨size, fun i => d.getD i 0⟩

/-- Outcome of a parser step.  Not in the code, for all of `libmdnsd/1035.c:97-426`. -/
inductive PRes (α : Type) where
  /-- normal result -/
  | ok (a : α)
  /-- the C function returns 1 -/
  | fail
  /-- a read outside the receive buffer -/
  | oob
  /-- a write outside the message structure -/
  | wub
  /-- a loop did not end within the fuel -/
  | hang
deriving Repr, DecidableEq

/-- One step after another; not in the code, for all of `libmdnsd/1035.c:97-426`. -/
@[inline] def PRes.bind {α β : Type} : PRes α → (α → PRes β) → PRes β
  | .ok a, f => f a
  | .fail, _ => .fail
  | .oob, _ => .oob
  | .wub, _ => .wub
  | .hang, _ => .hang

/-- Sequences of steps; not in the code, for all of `libmdnsd/1035.c:97-426`. -/
instance : Monad PRes where
  pure := .ok
  bind := PRes.bind

/-- Read one byte.  For example `libmdnsd/1035.c:40-42`. -/
def RBuf.rd (b : RBuf) (i : Nat) : PRes UInt8 := if i < b.size then .ok (b.at_ i) else .oob

/-- Read `n` bytes from offset `i` (`memcpy` from the buffer; nothing is read for
`n = 0`).  For example `libmdnsd/1035.c:130`, `290`. -/
def RBuf.rdN (b : RBuf) (i n : Nat) : PRes Bytes :=
  if n = 0 then .ok []
  else if i + n ≤ b.size then .ok ((List.range n).map fun k => b.at_ (i + k)) else .oob

/-- Write to offsets `[start, stop)` relative to `_packet`; `cap` is the first
offset outside the structure.  For example `libmdnsd/1035.c:130-131`, `140`, `290`. -/
def wr (cap stop : Nat) : PRes Unit := if stop ≤ cap then .ok () else .wub

/-- `net2short` at an offset, `libmdnsd/1035.c:36-46`. -/
def RBuf.short (b : RBuf) (i : Nat) : PRes Nat := do
  let b0 ← b.rd i
  let b1 ← b.rd (i + 1)
  pure (short2 b0 b1)

/-- `net2long` at an offset, `libmdnsd/1035.c:48-62`. -/
def RBuf.long (b : RBuf) (i : Nat) : PRes Nat := do
  let b0 ← b.rd i
  let b1 ← b.rd (i + 1)
  let b2 ← b.rd (i + 2)
  let b3 ← b.rd (i + 3)
  pure (long4 b0 b1 b2 b3)

/-- `MAX_PACKET_LEN`, `libmdnsd/1035.h:55`. -/
def maxPacketLen : Nat := 65535

/-- The inner `while` of `_label`, `libmdnsd/1035.c:113-121`: skip compression
pointers.  `prev` is `prevOffset + 1`. Gives the new position of `label`. -/
def skipPtrF (b : RBuf) (len : Nat) : Nat → (prev : Nat) → (label : Nat) → PRes Nat
  | 0, _, _ => .hang
  | fuel + 1, prev, label => do
    let c ← b.rd label
    if isPtr c then
      let c1 ← b.rd (label + 1)
      let offset := ldecomp c c1
      if offset < prev ∨ offset > len then .fail
      else
        let t ← b.rd offset
        if t = 0 then .ok offset
        else skipPtrF b len fuel (offset + 1) offset
    else .ok label

/-- Offsets increase strictly and are below 4096 (`ldecomp`).  `libmdnsd/1035.c:114-121`. -/
def ptrFuel : Nat := 4100

/-- The copying loop of `_label`, `libmdnsd/1035.c:110-132`.  `name` is the text
written so far at `_packet + len`.  The text is returned. -/
def copyLabelsF (b : RBuf) (cap len : Nat) : Nat → (label : Nat) → (name : Bytes) → PRes Bytes
  | 0, _, _ => .hang
  | fuel + 1, label, name => do
    let c ← b.rd label
    if c = 0 then .ok name
    else
      let label ← skipPtrF b len ptrFuel 0 label
      let c ← b.rd label
      let l := c.toNat
      if name.length + l > 255 ∨ len + (name.length + l) ≥ maxPacketLen ∨
          label + 1 + l > maxPacketLen then .fail
      else
        let chars ← b.rdN (label + 1) l
        wr cap (len + name.length + l + 1)
        copyLabelsF b cap len fuel (label + 1 + l) (name ++ chars ++ [0x2E])

/-- Every round adds at least one character and at most 256 fit.  `libmdnsd/1035.c:111-132`. -/
def copyFuel : Nat := 260

/-- The "advance buffer" loop of `_label`, `libmdnsd/1035.c:134-137`: the offset
behind the name.  (`label++` inside the condition skips one byte of a pointer.) -/
def advanceF (b : RBuf) : Nat → (label : Nat) → PRes Nat
  | 0, _ => .hang
  | fuel + 1, label => do
    let c ← b.rd label
    if c = 0 then .ok (label + 1)
    else if isPtr c then .ok (label + 2)
    else advanceF b fuel (label + c.toNat + 1)

/-- The mutable part of the message while parsing: read position `bufp`, the
length `_len` of the block of names and structures, and the cached names
(`_labels`, in order, as C strings).  `libmdnsd/1035.h:113-119`, `libmdnsd/1035.c:358`. -/
structure PState where
  pos : Nat
  len : Nat := 0
  cache : List Bytes := []
deriving DecidableEq, Repr

/-- The write `m->_labels[x] = *namep`, `libmdnsd/1035.c:151`; one behind the 512
entries of the table (`libmdnsd/1035.h:56`, `:115`) is flagged. -/
def putLabel (cache : List Bytes) (name : Bytes) : PRes (List Bytes) :=
  if cache.length < 512 then .ok (cache ++ [name]) else .wub

/-- Remember a name, `libmdnsd/1035.c:149-151`. -/
def cacheName (cache : List Bytes) (name : Bytes) : PRes (List Bytes) :=
  if cache.length < maxNumLabels then putLabel cache name else .ok cache

/-- `_label`, `libmdnsd/1035.c:97-155`: parse one name at `bufp`.  Names are
returned as C strings (a NUL inside a label ends the string). -/
def parseLabel (b : RBuf) (cap : Nat) (s : PState) : PRes (Bytes × PState) :=
  if s.len ≥ maxPacketLen then .fail
  else do
    let text ← copyLabelsF b cap s.len copyFuel s.pos []
    let pos ← advanceF b (b.size + 1) s.pos
    wr cap (s.len + text.length + 1)
    let name := cstr text
    if name ∈ s.cache then .ok (name, { s with pos := pos })
    else do
      let cache ← cacheName s.cache name
      .ok (name, { pos := pos, len := s.len + text.length + 1, cache := cache })

/-- Parsed question, `struct question`, `libmdnsd/1035.h:58-61`. -/
structure Question where
  name : Bytes
  type : Nat
  cls : Nat
deriving DecidableEq, Repr

/-- The union `known` of `struct resource`, `libmdnsd/1035.h:78-100`.  The text
form of addresses (`known.a.name`, `known.aaaa.name`) is not modelled. -/
inductive Known where
  | none
  | a (ip : Bytes)
  | aaaa (ip6 : Bytes)
  | name (n : Bytes)
  | srv (priority weight port : Nat) (n : Bytes)
deriving DecidableEq, Repr

/-- `struct resource`, `libmdnsd/1035.h:72-101`. -/
structure Resource where
  name : Bytes
  type : Nat
  cls : Nat
  ttl : Nat
  rdata : Bytes
  known : Known
deriving DecidableEq, Repr

/-- Record types with a single name as data: NS, CNAME, PTR.  `libmdnsd/1035.c:316-329`. -/
def isNameType (t : Nat) : Bool := t == 2 || t == 5 || t == 12

/-- One round of the loop of `_rrparse`, `libmdnsd/1035.c:268-342`.  `slot` is the
offset of `rr[i]` in `_packet`; `struct resource` has 64 bytes. -/
def parseRr (b : RBuf) (cap slot : Nat) (s : PState) : PRes (Resource × PState) := do
  let (name, s) ← parseLabel b cap s
  wr cap (slot + 64)
  let type ← b.short s.pos
  let cls ← b.short (s.pos + 2)
  let ttl ← b.long (s.pos + 4)
  let rdlength ← b.short (s.pos + 8)
  let pos := s.pos + 10
  if rdlength + pos > maxPacketLen ∨ s.len + rdlength > maxPacketLen then .fail
  else if isNameType type then
    let (n, s) ← parseLabel b cap { s with pos := pos }
    .ok (⟨name, type, cls, ttl, [], .name n⟩, s)
  else if type = 33 then
    let p ← b.short pos
    let w ← b.short (pos + 2)
    let o ← b.short (pos + 4)
    let (n, s) ← parseLabel b cap { s with pos := pos + 6 }
    .ok (⟨name, type, cls, ttl, [], .srv p w o n⟩, s)
  else
    wr cap (s.len + rdlength)
    let rdata ← b.rdN pos rdlength
    let len := s.len + rdlength
    if type = 1 then
      if len + 16 > maxPacketLen then .fail
      else
        wr cap (len + 16)
        let ip ← b.rdN pos 4
        .ok (⟨name, type, cls, ttl, rdata, .a ip⟩, { s with pos := pos + 4, len := len + 16 })
    else if type = 28 then
      if len + 46 > maxPacketLen then .fail
      else
        wr cap (len + 46)
        let ip ← b.rdN pos 16
        .ok (⟨name, type, cls, ttl, rdata, .aaaa ip⟩, { s with pos := pos + 16, len := len + 46 })
    else
      .ok (⟨name, type, cls, ttl, rdata, .none⟩, { s with pos := pos + rdlength, len := len })

/-- The loop of `_rrparse`, `libmdnsd/1035.c:263-346`. -/
def parseRrs (b : RBuf) (cap : Nat) : (slot : Nat) → Nat → PState → PRes (List Resource × PState)
  | _, 0, s => .ok ([], s)
  | slot, n + 1, s => do
    let (r, s) ← parseRr b cap slot s
    let (rs, s) ← parseRrs b cap (slot + 64) n s
    .ok (r :: rs, s)

/-- The question loop of `message_parse`, `libmdnsd/1035.c:407-412`;
`struct question` has 16 bytes. -/
def parseQds (b : RBuf) (cap : Nat) : (slot : Nat) → Nat → PState → PRes (List Question × PState)
  | _, 0, s => .ok ([], s)
  | slot, n + 1, s => do
    let (name, s) ← parseLabel b cap s
    wr cap (slot + 16)
    let type ← b.short s.pos
    let cls ← b.short (s.pos + 2)
    let (qs, s) ← parseQds b cap (slot + 16) n { s with pos := s.pos + 4 }
    .ok (⟨name, type, cls⟩ :: qs, s)

/-- A parsed message.  `libmdnsd/1035.h:103-120`. -/
structure Msg where
  id : Nat
  header : Header
  qd : List Question
  an : List Resource
  ns : List Resource
  ar : List Resource
deriving DecidableEq, Repr

/-- The `my` macro's alignment, `libmdnsd/1035.c:349-351`. -/
def align8 (n : Nat) : Nat := (n + 7) / 8 * 8

/-- Flag bytes to header fields, `libmdnsd/1035.c:366-378`. -/
def readFlags (f0 f1 : UInt8) : Header where
  qr := f0 &&& 0x80 != 0
  opcode := ((f0 &&& 0x78) >>> 3).toNat
  aa := f0 &&& 0x04 != 0
  tc := f0 &&& 0x02 != 0
  rd := f0 &&& 0x01 != 0
  ra := f1 &&& 0x80 != 0
  z := ((f1 &&& 0x70) >>> 4).toNat
  rcode := (f1 &&& 0x0F).toNat

/-- The four section counts.  `libmdnsd/1035.h:109`. -/
structure Counts where
  qd : Nat
  an : Nat
  ns : Nat
  ar : Nat

/-- The body of `message_parse` behind the counts, `libmdnsd/1035.c:405-425`. -/
def parseBody (b : RBuf) (cap : Nat) (id : Nat) (h : Header) (c : Counts) : PRes Msg := do
  let s : PState := { pos := 12, len := 16 * c.qd, cache := [] }
  let (qd, s) ← parseQds b cap 0 c.qd s
  let an0 := align8 s.len
  let ns0 := align8 (an0 + 64 * c.an)
  let ar0 := align8 (ns0 + 64 * c.ns)
  let s := { s with len := ar0 + 64 * c.ar }
  let (an, s) ← parseRrs b cap an0 c.an s
  let (ns, s) ← parseRrs b cap ns0 c.ns s
  let (ar, _) ← parseRrs b cap ar0 c.ar s
  .ok ⟨id, h, qd, an, ns, ar⟩

/-- `message_parse`, `libmdnsd/1035.c:355-426`, on a zeroed `struct message`. -/
def messageParse (b : RBuf) (cap : Nat) : PRes Msg := do
  let id ← b.short 0
  let f0 ← b.rd 2
  let f1 ← b.rd 3
  let qd ← b.short 4
  if 16 * qd > maxPacketLen - 8 then .fail
  else
    let an ← b.short 6
    if 64 * an > maxPacketLen - 8 then .fail
    else
      let ns ← b.short 8
      if 64 * ns > maxPacketLen - 8 then .fail
      else
        let ar ← b.short 10
        if 64 * ar > maxPacketLen - 8 then .fail
        else parseBody b cap id (readFlags f0 f1) ⟨qd, an, ns, ar⟩

end Mdns
