import Verif.Model.Parser
import Verif.Model.CLib

/-!
# What a parsed message points at, and how the daemon prints it

`Verif.Model.Parser` gives names and data by value.  The code gives pointers
into `_packet`, where texts and structures lie side by side, and where a name
that is already known is written although its place is not kept.  Here the
memory is kept as well.
-/

namespace Mdns.Received

/-- The bytes behind the start of `_packet`, `libmdnsd/1035.h:118`. -/
abbrev Mem := Nat → UInt8

/-- Bytes are stored at an offset.  For example `libmdnsd/1035.c:130`, `290`. -/
def store (m : Mem) (o : Nat) (d : Bytes) : Mem :=
  fun i => if o ≤ i ∧ i < o + d.length then d.getD (i - o) 0 else m i

/-- The C string at an offset, at most `n` bytes away from the end of the
structure; to go on behind it is `oob`.  For example `libmdnsd/1035.c:142`, `src/mdnsd.c:127`. -/
def strF (m : Mem) : Nat → Nat → PRes Bytes
  | 0, _ => .oob
  | n + 1, o => if m o = 0 then .ok [] else (strF m n (o + 1)).bind fun t => .ok (m o :: t)

/-- The C string at an offset of a structure whose first offset outside is
`cap`.  For example `libmdnsd/1035.c:142`, `src/mdnsd.c:127`. -/
def strAt (cap : Nat) (m : Mem) (o : Nat) : PRes Bytes := strF m (cap - o) o

/-- `n` bytes at an offset.  For example `libmdnsd/mdnsd.c:743`. -/
def bytesAt (cap : Nat) (m : Mem) (o n : Nat) : PRes Bytes :=
  if n = 0 then .ok []
  else if o + n ≤ cap then .ok ((List.range n).map fun k => m (o + k)) else .oob

/-- The texts `inet_ntop` writes for the four or sixteen bytes of an address,
a parameter.  `libmdnsd/1035.c:301`, `311`, `src/mdnsd.c:105`, `110`. -/
structure AddrText where
  v4 : Bytes → Bytes
  v6 : Bytes → Bytes
  len4 : ∀ a, (v4 a).length < 16
  len6 : ∀ a, (v6 a).length < 46
  nul4 : ∀ a, 0 ∉ v4 a
  nul6 : ∀ a, 0 ∉ v6 a

/-- The message while parsing: read position, `_len`, `_labels` as offsets and
the bytes.  `libmdnsd/1035.h:113-119`. -/
structure BState where
  pos : Nat
  len : Nat
  labels : List Nat
  mem : Mem

/-- The loop that looks for a name among those seen, `libmdnsd/1035.c:141-147`.
`strcmp` is taken to read both strings to their ends. -/
def findLabel (cap : Nat) (m : Mem) (name : Bytes) : List Nat → PRes (Option Nat)
  | [] => .ok none
  | o :: rest => (strAt cap m o).bind fun t =>
    if t = name then .ok (some o) else findLabel cap m name rest

/-- Remember a name, `libmdnsd/1035.c:149-151`. -/
def keepLabel (labels : List Nat) (o : Nat) : PRes (List Nat) :=
  if labels.length < maxNumLabels then
    if labels.length < 512 then .ok (labels ++ [o]) else .wub
  else .ok labels

/-- `_label`, `libmdnsd/1035.c:97-155`: the offset of the name.  The loop that
copies is the one of the parser model; its stores are made at its end. -/
def blockLabel (b : RBuf) (cap : Nat) (s : BState) : PRes (Nat × BState) :=
  if s.len ≥ maxPacketLen then .fail
  else do
    let text ← copyLabelsF b cap s.len copyFuel s.pos []
    let pos ← advanceF b (b.size + 1) s.pos
    wr cap (s.len + text.length + 1)
    let mem := store s.mem s.len (text ++ [0])
    let name ← strAt cap mem s.len
    match ← findLabel cap mem name s.labels with
    | some o => .ok (o, { s with pos := pos, mem := mem })
    | none => do
      let labels ← keepLabel s.labels s.len
      .ok (s.len, { pos := pos, len := s.len + text.length + 1, labels := labels, mem := mem })

/-- The union `known` with pointers as offsets, `libmdnsd/1035.h:78-100`. -/
inductive RawKnown where
  | none
  | a (text : Nat) (ip : Bytes)
  | aaaa (text : Nat) (ip6 : Bytes)
  | name (n : Nat)
  | srv (priority weight port : Nat) (n : Nat)

/-- `struct resource` with pointers as offsets, `libmdnsd/1035.h:72-101`. -/
structure RawRr where
  name : Nat
  type : Nat
  cls : Nat
  ttl : Nat
  rdata : Nat
  rdlength : Nat
  known : RawKnown

/-- `struct question` with pointers as offsets, `libmdnsd/1035.h:58-61`. -/
structure RawQuestion where
  name : Nat
  type : Nat
  cls : Nat

/-- The bytes of each structure, whatever they are: `junk slot k` is byte `k` of the
one at offset `slot`.  `libmdnsd/1035.h:58-61`, `72-101`. -/
abbrev Junk := Nat → Nat → UInt8

/-- The bytes of a structure of `n` bytes.  `libmdnsd/1035.c:268-273`, `408-411`. -/
def struct (junk : Junk) (slot n : Nat) : Bytes := (List.range n).map (junk slot)

/-- One round of the loop of `_rrparse`, `libmdnsd/1035.c:268-342`.  All stores to
the structure at `slot` are taken as one, of bytes that `junk` gives. -/
def blockRr (b : RBuf) (cap : Nat) (np : AddrText) (junk : Junk) (slot : Nat) (s : BState) :
    PRes (RawRr × BState) := do
  let (name, s) ← blockLabel b cap s
  wr cap (slot + 64)
  let s := { s with mem := store s.mem slot (struct junk slot 64) }
  let type ← b.short s.pos
  let cls ← b.short (s.pos + 2)
  let ttl ← b.long (s.pos + 4)
  let rdlength ← b.short (s.pos + 8)
  let pos := s.pos + 10
  if rdlength + pos > maxPacketLen ∨ s.len + rdlength > maxPacketLen then .fail
  else if isNameType type then do
    let (n, s) ← blockLabel b cap { s with pos := pos }
    .ok (⟨name, type, cls, ttl, 0, 0, .name n⟩, s)
  else if type = 33 then do
    let p ← b.short pos
    let w ← b.short (pos + 2)
    let o ← b.short (pos + 4)
    let (n, s) ← blockLabel b cap { s with pos := pos + 6 }
    .ok (⟨name, type, cls, ttl, 0, 0, .srv p w o n⟩, s)
  else do
    wr cap (s.len + rdlength)
    let rdata ← b.rdN pos rdlength
    let at_ := s.len
    let len := s.len + rdlength
    let mem := store s.mem at_ rdata
    if type = 1 then
      if len + 16 > maxPacketLen then .fail
      else do
        wr cap (len + 16)
        let ip ← b.rdN pos 4
        .ok (⟨name, type, cls, ttl, at_, rdlength, .a len ip⟩,
          { s with pos := pos + 4, len := len + 16, mem := store mem len (np.v4 ip ++ [0]) })
    else if type = 28 then
      if len + 46 > maxPacketLen then .fail
      else do
        wr cap (len + 46)
        let ip ← b.rdN pos 16
        .ok (⟨name, type, cls, ttl, at_, rdlength, .aaaa len ip⟩,
          { s with pos := pos + 16, len := len + 46, mem := store mem len (np.v6 ip ++ [0]) })
    else
      .ok (⟨name, type, cls, ttl, at_, rdlength, .none⟩, { s with pos := pos + rdlength, len := len, mem := mem })

/-- The loop of `_rrparse`, `libmdnsd/1035.c:263-346`. -/
def blockRrs (b : RBuf) (cap : Nat) (np : AddrText) (junk : Junk) :
    (slot : Nat) → Nat → BState → PRes (List RawRr × BState)
  | _, 0, s => .ok ([], s)
  | slot, n + 1, s => do
    let (r, s) ← blockRr b cap np junk slot s
    let (rs, s) ← blockRrs b cap np junk (slot + 64) n s
    .ok (r :: rs, s)

/-- The question loop of `message_parse`, `libmdnsd/1035.c:407-412`. -/
def blockQds (b : RBuf) (cap : Nat) (junk : Junk) :
    (slot : Nat) → Nat → BState → PRes (List RawQuestion × BState)
  | _, 0, s => .ok ([], s)
  | slot, n + 1, s => do
    let (name, s) ← blockLabel b cap s
    wr cap (slot + 16)
    let s := { s with mem := store s.mem slot (struct junk slot 16) }
    let type ← b.short s.pos
    let cls ← b.short (s.pos + 2)
    let (qs, s) ← blockQds b cap junk (slot + 16) n { s with pos := s.pos + 4 }
    .ok (⟨name, type, cls⟩ :: qs, s)

/-- A parsed message with its memory; `anAt`, `nsAt` and `arAt` are the pointers to
the arrays of records.  `libmdnsd/1035.h:103-120`. -/
structure RawMsg where
  id : Nat
  header : Header
  qd : List RawQuestion
  an : List RawRr
  ns : List RawRr
  ar : List RawRr
  anAt : Nat
  nsAt : Nat
  arAt : Nat
  mem : Mem

/-- The body of `message_parse` behind the counts, `libmdnsd/1035.c:405-425`. -/
def blockBody (b : RBuf) (cap : Nat) (np : AddrText) (junk : Junk) (id : Nat) (h : Header) (c : Counts) :
    PRes RawMsg := do
  let s : BState := { pos := 12, len := 16 * c.qd, labels := [], mem := fun _ => 0 }
  let (qd, s) ← blockQds b cap junk 0 c.qd s
  let an0 := align8 s.len
  let ns0 := align8 (an0 + 64 * c.an)
  let ar0 := align8 (ns0 + 64 * c.ns)
  let s := { s with len := ar0 + 64 * c.ar }
  let (an, s) ← blockRrs b cap np junk an0 c.an s
  let (ns, s) ← blockRrs b cap np junk ns0 c.ns s
  let (ar, s) ← blockRrs b cap np junk ar0 c.ar s
  .ok ⟨id, h, qd, an, ns, ar, an0, ns0, ar0, s.mem⟩

/-- `message_parse`, `libmdnsd/1035.c:355-426`, on a zeroed `struct message`
(`libmdnsd/mdnsd.c:1929`; its last byte of padding is taken to be zero as well). -/
def blockParse (b : RBuf) (cap : Nat) (np : AddrText) (junk : Junk) : PRes RawMsg := do
  let id ← b.short 0
  let f0 ← b.rd 2
  let f1 ← b.rd 3
  let qd ← b.short 4
  if 16 * qd > maxPacketLen - 8 then .fail
  else
    let an ← b.short 6
    if 64 * an > maxPacketLen - 8 then .fail
    else
      let ns ← b.short 8
      if 64 * ns > maxPacketLen - 8 then .fail
      else
        let ar ← b.short 10
        if 64 * ar > maxPacketLen - 8 then .fail
        else blockBody b cap np junk id (readFlags f0 f1) ⟨qd, an, ns, ar⟩

/-- "Got ", `src/mdnsd.c:106`. -/
abbrev sGot : Bytes := [0x47, 0x6F, 0x74, 0x20]

/-- ": A ", `src/mdnsd.c:106`. -/
abbrev sA : Bytes := [0x3A, 0x20, 0x41, 0x20]

/-- "->", `src/mdnsd.c:106`. -/
abbrev sArrow : Bytes := [0x2D, 0x3E]

/-- ": AAAA ", `src/mdnsd.c:111`. -/
abbrev sAaaa : Bytes := [0x3A, 0x20, 0x41, 0x41, 0x41, 0x41, 0x20]

/-- ": NS ", `src/mdnsd.c:115`. -/
abbrev sNs : Bytes := [0x3A, 0x20, 0x4E, 0x53, 0x20]

/-- ": CNAME ", `src/mdnsd.c:119`. -/
abbrev sCname : Bytes := [0x3A, 0x20, 0x43, 0x4E, 0x41, 0x4D, 0x45, 0x20]

/-- ": PTR ", `src/mdnsd.c:123`. -/
abbrev sPtr : Bytes := [0x3A, 0x20, 0x50, 0x54, 0x52, 0x20]

/-- ": TXT ", `src/mdnsd.c:127`. -/
abbrev sTxt : Bytes := [0x3A, 0x20, 0x54, 0x58, 0x54, 0x20]

/-- ": SRV ", `src/mdnsd.c:131`. -/
abbrev sSrv : Bytes := [0x3A, 0x20, 0x53, 0x52, 0x56, 0x20]

/-- ": unknown", `src/mdnsd.c:136`. -/
abbrev sUnknown : Bytes := [0x3A, 0x20, 0x75, 0x6E, 0x6B, 0x6E, 0x6F, 0x77, 0x6E]

/-- `record_received`, `src/mdnsd.c:99-139`: the text handed to the log.  The log
writes it without a limit (`libmdnsd/log.c:140-162`).  Numbers of SRV records are
`unsigned short`. -/
def recordReceived (cap : Nat) (np : AddrText) (m : Mem) (r : RawRr) : PRes Bytes := do
  let name ← strAt cap m r.name
  let got := sGot ++ name
  match r.type, r.known with
  | 1, .a t ip => do
    let t ← strAt cap m t
    .ok (got ++ sA ++ t ++ sArrow ++ np.v4 ip)
  | 28, .aaaa t ip => do
    let t ← strAt cap m t
    .ok (got ++ sAaaa ++ t ++ sArrow ++ np.v6 ip)
  | 2, .name n => do
    let n ← strAt cap m n
    .ok (got ++ sNs ++ n)
  | 5, .name n => do
    let n ← strAt cap m n
    .ok (got ++ sCname ++ n)
  | 12, .name n => do
    let n ← strAt cap m n
    .ok (got ++ sPtr ++ n)
  | 16, _ => do
    let t ← strAt cap m r.rdata
    .ok (got ++ sTxt ++ t)
  | 33, .srv p w o n => do
    let n ← strAt cap m n
    .ok (got ++ sSrv ++ CLib.decimal p ++ [0x20] ++ CLib.decimal w ++ [0x20] ++
      CLib.decimal o ++ [0x20] ++ n)
  | _, _ => .ok (got ++ sUnknown)

end Mdns.Received
