import Verif.Model.Basic

/-!
# Printing packets, `mdnsd_log_hex`, `libmdnsd/log.c:105-138`

What is written to standard output if the level is debug and syslog is not used.
-/

namespace Mdns.Hex

/-- A hexadecimal digit; `a` is the letter for 10.  `libmdnsd/log.c:105-138`. -/
def digit (a n : Nat) : UInt8 := UInt8.ofNat (if n < 10 then 0x30 + n else a + n - 10)

/-- `%x`.  `libmdnsd/log.c:105-138`. -/
def lower (n : Nat) : Bytes := if n < 16 then [digit 0x61 n] else lower (n / 16) ++ [digit 0x61 (n % 16)]

/-- `%06x`.  `libmdnsd/log.c:105-138`. -/
def offset (n : Nat) : Bytes := List.replicate (6 - (lower n).length) 0x30 ++ lower n

/-- `%02X` and a space.  `libmdnsd/log.c:105-138`. -/
def byte (b : UInt8) : Bytes := [digit 0x41 (b.toNat / 16), digit 0x41 (b.toNat % 16), 0x20]

/-- `isprint` in the C locale, and the dot for what is not, `log.c:123-126`. -/
def char (b : UInt8) : UInt8 := if 0x20 ≤ b ∧ b ≤ 0x7E then b else 0x2E

/-- The string at the beginning of the array `ascii`.  `libmdnsd/log.c:105-138`. -/
def str (a : Bytes) : Bytes := a.takeWhile (· != 0)

/-- The loop, `log.c:118-127`: what is printed, and `ascii` afterwards. -/
def loop : Nat → Bytes → Bytes → Bytes × Bytes
  | _, [], a => ([], a)
  | i, b :: r, a =>
    let head := if i % 16 = 0 then str a ++ [0x0A] ++ offset i ++ [0x20] else []
    let (o, a) := loop (i + 1) r (a.set (i % 16) (char b))
    (head ++ byte b ++ o, a)

/-- `mdnsd_log_hex`, `log.c:115-137`. -/
def dump (msg buf : Bytes) : Bytes :=
  let (o, a) := loop 0 buf (List.replicate 17 0)
  let k := buf.length % 16
  msg ++ o ++ (if k = 0 then [] else List.replicate (3 * (16 - k)) 0x20) ++ str (a.set k 0) ++ [0x0A, 0x0A]

end Mdns.Hex
