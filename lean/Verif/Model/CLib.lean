import Verif.Model.Basic

/-!
# C library functions used by the programs in `src/`

These are not part of the repository (except `strlcpy`, which has a fallback);
the definitions state what the C standard and POSIX promise, in the C locale.
Strings are byte lists without NUL.
-/

namespace Mdns.CLib

/-- `strlcpy(dst, src, size)` with `size > 0`, `lib/strlcpy.c:28-52`: the string
in `dst` afterwards. -/
def strlcpy (src : Bytes) (size : Nat) : Bytes := src.take (size - 1)

/-- `snprintf(buf, size, "%s%s…", …)` with `size > 0`: the string in `buf`,
where `out` is the whole output.  `src/conf.c:141`, `205-213`. -/
def snprintf (out : Bytes) (size : Nat) : Bytes := out.take (size - 1)

/-- `isspace` in the C locale.  In `strtol`, `src/conf.c:102`. -/
def isSpace (c : UInt8) : Bool := c == 0x20 || (0x09 ≤ c && c ≤ 0x0D)

/-- `isdigit`.  In `strtol`, `src/conf.c:102`. -/
def isDigit (c : UInt8) : Bool := 0x30 ≤ c && c ≤ 0x39

/-- `tolower` in the C locale.  In `strcasecmp`, `libmdnsd/log.c:73-96`. -/
def toLower (c : UInt8) : UInt8 := if 0x41 ≤ c && c ≤ 0x5A then c + 0x20 else c

/-- The value of a digit string, most significant digit first.  In `strtol`, `src/conf.c:102`. -/
def digits (acc : Nat) (s : Bytes) : Nat :=
  s.foldl (fun a c => a * 10 + (c.toNat - 0x30)) acc

/-- `strtol(s, …, 10)` with 64-bit `long`: white space, an optional sign and
digits; values out of range are clamped; no digits give 0.  `src/conf.c:102`. -/
def strtol (s : Bytes) : Int :=
  let s := s.dropWhile isSpace
  let neg := s.head? == some 0x2D
  let s := if s.head? == some 0x2D || s.head? == some 0x2B then s.drop 1 else s
  let v := digits 0 (s.takeWhile isDigit)
  if neg then max (-(2 ^ 63 : Int)) (-(v : Int)) else min (2 ^ 63 - 1 : Int) (v : Int)

/-- Conversion of a `long` to `int` (LP64, two's complement).  `src/conf.c:102`. -/
def toInt32 (v : Int) : Int := (BitVec.ofInt 32 v).toInt

/-- `atoi`, which glibc defines as `(int) strtol(s, NULL, 10)`.  `src/mdnsd.c:354`, `src/mquery.c:575`, `583`. -/
def atoi (s : Bytes) : Int := toInt32 (strtol s)

/-- `%d` of a non-negative number: its decimal digits.  `src/conf.c:296`, `src/mquery.c:465`. -/
def decimal (n : Nat) : Bytes :=
  if n < 10 then [UInt8.ofNat (0x30 + n)]
  else decimal (n / 10) ++ [UInt8.ofNat (0x30 + n % 10)]

/-- `fgets(line, size, fp)` with `size > 1` on a file with the bytes `f` left:
the bytes stored in `line` (up to and including a newline, at most `size - 1`
of them), and the bytes left.  `src/conf.c:128`, `src/mquery.c:137`. -/
def fgets (size : Nat) (f : Bytes) : Bytes × Bytes :=
  let n := min (size - 1) ((f.takeWhile (· != 0x0A)).length + 1)
  (f.take n, f.drop n)

/-- `strcasecmp(a, b) == 0`.  `libmdnsd/log.c:73-96`. -/
def caseEq (a b : Bytes) : Bool := a.map toLower == b.map toLower

end Mdns.CLib
