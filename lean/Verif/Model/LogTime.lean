import Verif.Model.LogSys

/-!
# The time of day in the log, `libmdnsd/log.c:164-183`

`localtime` and `strftime` belong to the C library.  What the time zone makes of a time is an unknown.
-/

namespace Mdns.Log

/-- The part of `struct tm` that is used, `libmdnsd/log.c:168`. -/
structure Tm where
  hour : Int
  min : Int
  sec : Int
deriving Repr, DecidableEq

/-- How `mdnsd_log_time` ends, `libmdnsd/log.c:164-183`. -/
inductive TimeOut where
  /-- nothing is written -/
  | nothing
  /-- text and the zero byte in `buf` -/
  | buffer (text : Bytes)
  /-- a message of severity `LOG_DEBUG` -/
  | message (text : Bytes)
  /-- `localtime` gave NULL, which is used -/
  | null
  /-- `strftime` with a field out of range, or more than fits: the contents of the array are not defined -/
  | undefined
deriving Repr, DecidableEq

/-- `%H`, `%M` and `%S` of `strftime`: two digits.  `libmdnsd/log.c:177`, `181`. -/
def twoDigits (n : Int) : Option Bytes :=
  if 0 ≤ n ∧ n < 100 then some [UInt8.ofNat (48 + n.toNat / 10), UInt8.ofNat (48 + n.toNat % 10)] else none

/-- `strftime(buf, len, "%H:%M:%S", tm)`, `libmdnsd/log.c:177`, `181`: `none` if the text with its zero byte does not fit. -/
def strftime (len : Nat) (tm : Tm) : Option Bytes :=
  match twoDigits tm.hour, twoDigits tm.min, twoDigits tm.sec with
  | some h, some m, some s =>
    let t := h ++ [0x3A] ++ m ++ [0x3A] ++ s
    if t.length + 1 ≤ len then some t else none
  | _, _, _ => none

/-- `mdnsd_log_time`, `libmdnsd/log.c:164-183`; `tm` is what `localtime` gives, `buf` the size of the buffer if there is one. -/
def logTime (level : Int) (tm : Option Tm) (usec : Int) (buf : Option Nat) : TimeOut :=
  if level < 7 then .nothing
  else
    match tm with
    | none => .null
    | some tm =>
      let tm := { tm with sec := tm.sec + usec.tdiv 1000000 }
      let own :=
        match strftime 15 tm with
        | none => .undefined
        | some t => .message (0x40 :: t)
      match buf with
      | none => own
      | some len =>
        if len > 8 then
          match strftime len tm with
          | none => .undefined
          | some t => .buffer t
        else own

end Mdns.Log
