import Verif.Model.Conf
import Verif.Model.Glob

/-!
# Strings in buffers

Elsewhere strings are lists of bytes.  Here are the functions that put them together in buffers of a fixed size, byte by
byte: `lib/strlcpy.c`, and the host name and the pattern of `src/conf.c`.
-/

namespace Mdns.Buf

/-- Outcome: a value, an access outside of a buffer, or a loop that does not end.  Not in the code, for `lib/strlcpy.c:28-50`. -/
inductive R (α : Type) where
  | ok (a : α)
  | oob
  | hang
deriving Repr, DecidableEq

/-- One step after another; not in the code, for `lib/strlcpy.c:28-50`. -/
@[inline] def R.bind {α β : Type} : R α → (α → R β) → R β
  | .ok a, f => f a
  | .oob, _ => .oob
  | .hang, _ => .hang

/-- Sequences of steps; not in the code, for `lib/strlcpy.c:28-50`. -/
instance : Monad R where
  pure := .ok
  bind := R.bind

/-- Read one byte of a buffer.  `lib/strlcpy.c:36`, `45`. -/
def rd (m : Bytes) (i : Nat) : R UInt8 :=
  match m[i]? with
  | some c => .ok c
  | none => .oob

/-- Write one byte of a buffer.  `lib/strlcpy.c:36`, `44`. -/
def wr (m : Bytes) (i : Nat) (c : UInt8) : R Bytes := if i < m.length then .ok (m.set i c) else .oob

/-- The copying loop, `lib/strlcpy.c:35-38`, for `nleft` that is not zero: `nleft`, `dst`, `src` and the buffer afterwards. -/
def copy (src : Bytes) : Nat → Nat → Nat → Bytes → R (Nat × Nat × Nat × Bytes)
  | 0, _, _, _ => .hang
  | n + 1, d, s, dst =>
    if n = 0 then .ok (0, d, s, dst)
    else do
      let c ← rd src s
      let dst ← wr dst d c
      if c = 0 then .ok (n, d + 1, s + 1, dst) else copy src n (d + 1) (s + 1) dst

/-- The loop to the end of the string, `lib/strlcpy.c:45-46`. -/
def skip (src : Bytes) : Nat → Nat → R Nat
  | 0, _ => .hang
  | n + 1, s => do
    let c ← rd src s
    if c = 0 then .ok (s + 1) else skip src n (s + 1)

/-- `strlcpy(&dst[d], &src[s], dsize)`, `lib/strlcpy.c:28-50`: the value returned and the buffer. -/
def strlcpy (dst : Bytes) (d : Nat) (src : Bytes) (s : Nat) (dsize : Nat) : R (Nat × Bytes) := do
  let (nleft, d, s', dst) ← if dsize ≠ 0 then copy src dsize d s dst else .ok (0, d, s, dst)
  if nleft = 0 then do
    let dst ← if dsize ≠ 0 then wr dst d 0 else .ok dst
    let s' ← skip src (src.length + 1) s'
    .ok (s' - s - 1, dst)
  else .ok (s' - s - 1, dst)

/-- `strlen(&m[i])`, as in `src/conf.c:297`, `319`. -/
def strlen (m : Bytes) (i : Nat) : R Nat := do
  let j ← skip m (m.length + 1) i
  .ok (j - i - 1)

/-- Bytes written one after the other, as `memcpy` and `snprintf` do.  `src/conf.c:296`, `320-321`, `334`. -/
def puts (m : Bytes) : Nat → Bytes → R Bytes
  | _, [] => .ok m
  | i, c :: rest => do
    let m ← wr m i c
    puts m (i + 1) rest

/-- `strcat(m, t)`, `src/conf.c:320-321`. -/
def strcat (m t : Bytes) : R Bytes := do
  let n ← strlen m 0
  puts m n (t ++ [0])

/-- The bytes of `default`.  `src/conf.c:288`. -/
def byDefault : Bytes := [0x64, 0x65, 0x66, 0x61, 0x75, 0x6C, 0x74, 0]

/-- Where the host name comes from, `src/conf.c:283-289`: `-H` with the given memory, or `gethostname`, which fails or leaves
the buffer like this. -/
inductive Source where
  | given (mem : Bytes)
  | failed
  | system (buf : Bytes)

/-- `src/conf.c:283-289` with `_POSIX_HOST_NAME_MAX` = 255. -/
def base (buf : Bytes) : Source → R Bytes
  | .given mem => do
    let (_, b) ← strlcpy buf 0 mem 0 255
    .ok b
  | .failed => do
    let (_, b) ← strlcpy buf 0 byDefault 0 255
    .ok b
  | .system b => .ok b

/-- The host name, `src/conf.c:278-302`.  `size_t` does not wrap, because `slen` is at most 13.  `snprintf` writes what fits and the
zero byte. -/
def hostname (buf suffix : Bytes) (src : Source) (hostid : Nat) : R Bytes := do
  let buf ← base buf src
  if hostid > 1 then do
    let text := 0x2D :: CLib.decimal hostid
    let suffix ← puts suffix 0 (CLib.snprintf text 16 ++ [0])
    let slen := text.length + 1
    let n ← strlen buf 0
    let hlen := if n + slen ≥ 255 then 255 - slen else n
    let (_, buf) ← strlcpy buf hlen suffix 0 (255 - hlen)
    .ok buf
  else .ok buf

/-- The bytes `*.service`.  `src/conf.c:321`. -/
def starService : Bytes := 0x2A :: Glob.dotService

/-- The pattern, `src/conf.c:315-321`: `pat` has `strlen(path) + 64` bytes. -/
def pattern (pat path : Bytes) (n : Nat) : R Bytes := do
  let (_, pat) ← strlcpy pat 0 path 0 (n + 64)
  let c ← if n = 0 then .oob else rd pat (n - 1)
  let pat ← if c ≠ 0x2F then strcat pat [0x2F] else .ok pat
  strcat pat starService

/-- Read some bytes, for `memmove`.  `src/conf.c:333`. -/
def gets (m : Bytes) (i n : Nat) : R Bytes := if i + n ≤ m.length then .ok ((m.drop i).take n) else .oob

/-- The replacement for `~` where `glob` does not know it, `src/conf.c:327-336`; `n` is `strlen(path)`, `home` the string of the
environment. -/
def tilde (pat home : Bytes) (n : Nat) : R Bytes := do
  let a ← rd pat 0
  let b ← if a = 0x7E then rd pat 1 else .ok 0
  if a = 0x7E ∧ b = 0x2F then do
    let s ← gets pat 0 n
    let pat ← puts pat home.length s
    puts pat 0 home
  else .ok pat

end Mdns.Buf
