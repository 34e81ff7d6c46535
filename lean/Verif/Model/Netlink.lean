import Verif.Model.Basic

/-!
# Netlink events, `src/netlink.c`
-/

namespace Mdns.Netlink

/-- `NL_BUFSZ`, `src/netlink.c:44`. -/
def bufSize : Nat := 4096

/-- Outcome: a value, a read outside the buffer, or a loop that does not end.  `src/netlink.c:80-120`. -/
inductive Out (α : Type) where
  | ok (a : α)
  | oob
  | hang
deriving Repr, DecidableEq

/-- `nlmsg_len` and `nlmsg_type` of `struct nlmsghdr` at an offset of the buffer
(little endian).  `src/netlink.c:80-120`. -/
def msgLen (buf : Bytes) (off : Nat) : Nat :=
  (buf.getD off 0).toNat + 256 * (buf.getD (off + 1) 0).toNat +
    65536 * (buf.getD (off + 2) 0).toNat + 16777216 * (buf.getD (off + 3) 0).toNat
/-- See `msgLen`, `src/netlink.c:80-120`. -/
def msgType (buf : Bytes) (off : Nat) : Nat :=
  (buf.getD (off + 4) 0).toNat + 256 * (buf.getD (off + 5) 0).toNat

/-- The cases of the `switch`, `src/netlink.c:106-115`: `RTM_NEWLINK` (16),
`RTM_DELLINK` (17), `RTM_NEWADDR` (20), `RTM_DELADDR` (21). -/
def relevant (type : Nat) : Bool := type == 16 || type == 17 || type == 20 || type == 21

/-- `NLMSG_ALIGN` of `linux/netlink.h`, in 32 bits.  `NLMSG_NEXT`, `src/netlink.c:80-120`. -/
def align (n : Nat) : Nat := (n + 3) % 2 ^ 32 / 4 * 4

/-- The loop over the messages, `src/netlink.c:105-116`.  `l` is the `size_t` the
macros `NLMSG_OK` and `NLMSG_NEXT` of `linux/netlink.h` work on; the subtraction
in `NLMSG_NEXT` wraps. -/
def messages (buf : Bytes) : Nat → Nat → Nat → Bool → Out Bool
  | 0, _, _, _ => .hang
  | n + 1, off, l, changed =>
    if l < 16 then .ok changed
    else if bufSize < off + 4 then .oob
    else
      let len := msgLen buf off
      if len < 16 ∨ l < len then .ok changed
      else if bufSize < off + 6 then .oob
      else
        messages buf n (off + align len) ((l + 2 ^ 64 - align len) % 2 ^ 64)
          (changed || relevant (msgType buf off))

/-- How the calls of `recv` end.  `src/netlink.c:80-120`. -/
inductive Stop where
  | again      -- `EAGAIN`
  | nobufs     -- `ENOBUFS`
  | error      -- any other error
deriving Repr, DecidableEq

/-- `netlink_read`, `src/netlink.c:80-120`.  The arguments are the contents of
`buf` (4096 bytes), the results of `recv` until the last one (`none` is `EINTR`,
else a datagram, of which `recv` stores what fits), and the last result. -/
def read (buf : Bytes) (changed : Bool) : List (Option Bytes) → Stop → Out Int
  | [], .again => .ok (if changed then 1 else 0)
  | [], .nobufs => .ok 1
  | [], .error => .ok (-1)
  | none :: rs, s => read buf changed rs s
  | some d :: rs, s =>
    let got := d.take bufSize
    let buf := got ++ buf.drop got.length
    match messages buf (bufSize + 1) 0 got.length changed with
    | .ok changed => read buf changed rs s
    | .oob => .oob
    | .hang => .hang

end Mdns.Netlink
