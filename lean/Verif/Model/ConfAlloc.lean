import Verif.Model.Service

/-!
# The strings of service files, `src/conf.c`

`read_line`, `parse` and `load` with the memory of their strings: every `strdup` may fail, every
`free` must be of a block that is in use.  What the library and `fopen` allocate is not followed.
-/

namespace Mdns.Conf.Mem

open Mdns M
open Mdns.CLib

variable {Q : Type} [QOps Q]

/-- The heap as far as `src/conf.c` uses it: the number of `strdup` calls so far, which also is
the address of the next block, and the blocks in use.  `src/conf.c:95-114`, `200-203`, `255-260`. -/
structure Heap where
  next : Nat := 0
  live : List Nat := []
deriving Repr, DecidableEq

/-- A pointer to a string: NULL, or the address and the text.  `src/conf.c:43-54`. -/
abbrev Str := Option (Nat × Bytes)

/-- What can happen: NULL is used as a string, something is freed that is not in use, or a line
is accessed outside of its buffer.  `src/conf.c:57-116`, `184-263`. -/
inductive Hp (α : Type) where
  | ok (a : α)
  | null
  | badfree
  | oob
deriving Repr, DecidableEq

/-- `strdup`; `mem k` tells whether the `k`-th call gets memory.  `src/conf.c:96`. -/
def strdup (mem : Nat → Bool) (s : Bytes) (h : Heap) : Str × Heap :=
  if mem h.next then (some (h.next, s), { next := h.next + 1, live := h.next :: h.live })
  else (none, { h with next := h.next + 1 })

/-- `free`, `src/conf.c:95`; of NULL it does nothing. -/
def free : Str → Heap → Hp Heap
  | none, h => .ok h
  | some p, h => if p.1 ∈ h.live then .ok { h with live := h.live.erase p.1 } else .badfree

/-- `free(old); old = strdup(arg);`, `src/conf.c:95-96`, `98-99`, `108-109`, `111-112`. -/
def replace (mem : Nat → Bool) (old : Str) (arg : Bytes) (h : Heap) : Hp (Str × Heap) :=
  match free old h with
  | .ok h => .ok (strdup mem arg h)
  | .null => .null
  | .badfree => .badfree
  | .oob => .oob

/-- `struct conf_srec`, `src/conf.c:43-54`; `txt` is the first `txt_num` entries of the array. -/
structure SRecH where
  type : Str := none
  name : Str := none
  port : Int := 0
  target : Str := none
  cname : Str := none
  txt : List Str := []
deriving Repr, DecidableEq

/-- The pointer stored in the record. -/
def Hp.store {α β : Type} (f : α → β) : Hp (α × Heap) → Hp (β × Heap)
  | .ok (p, h) => .ok (f p, h)
  | .null => .null
  | .badfree => .badfree
  | .oob => .oob

/-- `read_line`, `src/conf.c:78-116`. -/
def readLineH (mem : Nat → Bool) (line : Bytes) (s : SRecH) (h : Heap) : Hp (SRecH × Heap) :=
  match chomp line with
  | .oob => .oob
  | .ok none => .ok (s, h)
  | .ok (some l) =>
    if l.head? = some 0x23 then .ok (s, h)
    else
      match strsep l with
      | (_, none) => .ok (s, h)
      | (tok, some arg) =>
        if tok = kwType then (replace mem s.type arg h).store fun p => { s with type := p }
        else if tok = kwName then (replace mem s.name arg h).store fun p => { s with name := p }
        else if tok = kwPort then .ok ({ s with port := toInt32 (strtol arg) }, h)
        else if tok = kwTarget then (replace mem s.target arg h).store fun p => { s with target := p }
        else if tok = kwCname then (replace mem s.cname arg h).store fun p => { s with cname := p }
        else if tok = kwTxt ∧ s.txt.length < 42 then
          (Hp.ok (strdup mem arg h)).store fun p => { s with txt := s.txt ++ [p] }
        else .ok (s, h)

/-- The loop of `parse`, `src/conf.c:128-129`. -/
def parseLoopH (mem : Nat → Bool) : Nat → Bytes → SRecH → Heap → Hp (SRecH × Heap)
  | 0, _, s, h => .ok (s, h)
  | n + 1, f, s, h =>
    if f = [] then .ok (s, h)
    else
      match readLineH mem (cstr (fgets 256 f).1) s h with
      | .ok (s, h) => parseLoopH mem n (fgets 256 f).2 s h
      | .null => .null
      | .badfree => .badfree
      | .oob => .oob

/-- `if (!p) p = strdup(...)`, `src/conf.c:200-203`. -/
def default (mem : Nat → Bool) (p : Str) (d : Bytes) (h : Heap) : Str × Heap :=
  match p with
  | none => strdup mem d h
  | some p => (some p, h)

/-- `free` of several pointers in a row, `src/conf.c:255-260`. -/
def freeAll : List Str → Heap → Hp Heap
  | [], h => .ok h
  | p :: ps, h =>
    match free p h with
    | .ok h => freeAll ps h
    | .null => .null
    | .badfree => .badfree
    | .oob => .oob

/-- `load`, `src/conf.c:184-263`, as far as strings go: reading the file, the defaults (200-203),
the use of name and type (205-206) and of the TXT strings (243), and freeing (255-260; entries of
the array behind the first `txt_num` are NULL).  Gives the settings that are published. -/
def loadStrings (mem : Nat → Bool) (file hostname : Bytes) (h : Heap) : Hp (SRec × Heap) :=
  match parseLoopH mem file.length file {} h with
  | .null => .null
  | .badfree => .badfree
  | .oob => .oob
  | .ok (s, h) =>
    match default mem s.name hostname h with
    | (n, h) =>
      match default mem s.type httpTcp h with
      | (t, h) =>
        match n, t with
        | some n, some t =>
          if none ∈ s.txt then .null
          else
            match freeAll (some t :: some n :: s.target :: s.cname :: s.txt) h with
            | .ok h =>
              .ok ({ type := some t.2, name := some n.2, port := s.port, target := s.target.map (·.2),
                     cname := s.cname.map (·.2), txt := s.txt.filterMap (·.map (·.2)) }, h)
            | .null => .null
            | .badfree => .badfree
            | .oob => .oob
        | _, _ => .null

/-- `load`, `src/conf.c:184-263`, of a file with the memory of its strings; `none` if the file cannot
be opened.  What the library allocates does not fail. -/
def loadFileH (mem : Nat → Bool) (cb : Nat) (file : Option Bytes) (hostname : Bytes) (addrs : Option (List Ip4 × List Ip6))
    (h : Heap) : M Q (Nat × Heap) :=
  match file with
  | none => pure (1, h)
  | some b =>
    match loadStrings mem b hostname h with
    | .ok (s, h) => do
      load cb s hostname addrs
      pure (0, h)
    | _ => ub

end Mdns.Conf.Mem
