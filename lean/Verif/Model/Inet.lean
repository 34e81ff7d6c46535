import Verif.Model.DaemonTypes

/-!
# Socket addresses as bytes, `libmdnsd/inet.c`

`struct sockaddr_storage` as on Linux with little-endian numbers: 128 bytes, the family in the first two, the port in network
order in the next two; the address from byte 4 (`sockaddr_in`, 16 bytes) or from byte 8 (`sockaddr_in6`, 28 bytes, with the
flow before it and the scope behind).  `Model/Daemon` uses the address and the port only.
-/

namespace Mdns.Inet

/-- `inet_family`, `libmdnsd/inet.c:8-11`. -/
def family (s : Bytes) : Nat := (s.getD 0 0).toNat + 256 * (s.getD 1 0).toNat

/-- `inet_len`, `libmdnsd/inet.c:13-18`; `AF_INET6` is 10. -/
def len (s : Bytes) : Nat := if family s = 10 then 28 else 16

/-- `inet_port`, `libmdnsd/inet.c:20-27`: the port is at the same place for both families. -/
def port (s : Bytes) : Nat := (s.getD 2 0).toNat * 256 + (s.getD 3 0).toNat

/-- A field is written. For `libmdnsd/inet.c:29-57`, `libmdnsd/mdnsd.c:899-915`. -/
def put (s : Bytes) (at' : Nat) (v : Bytes) : Bytes := s.take at' ++ v ++ s.drop (at' + v.length)

/-- `htons`, as the bytes in memory.  `libmdnsd/inet.c:33`, `37`, `50`, `55`. -/
def htons (p : UInt16) : Bytes := [UInt8.ofNat (p.toNat / 256), UInt8.ofNat (p.toNat % 256)]

/-- `inet_set_port`, `libmdnsd/inet.c:29-38`. -/
def setPort (s : Bytes) (p : UInt16) : Bytes := put s 2 (htons p)

/-- `memset(ss, 0, sizeof(*ss)); ss->ss_family = family`, `libmdnsd/inet.c:42-43`, `libmdnsd/mdnsd.c:901-902`. -/
def fresh (f : Family) : Bytes :=
  put (List.replicate 128 0) 0 (match f with | .inet => [2, 0] | .inet6 => [10, 0])

/-- `inet_anyaddr`, `libmdnsd/inet.c:40-57`. -/
def anyaddr (f : Family) (p : UInt16) : Bytes :=
  match f with
  | .inet6 => put (put (fresh f) 8 (List.replicate 16 0)) 2 (htons p)
  | .inet => put (put (fresh f) 4 [0, 0, 0, 0]) 2 (htons p)

/-- `mdns_mcast`, `libmdnsd/mdnsd.c:899-915`, with `ff02::fb` and `224.0.0.251`. -/
def mcast (f : Family) : Bytes :=
  match f with
  | .inet6 => put (put (fresh f) 8 [0xFF, 2, 0, 0, 0, 0, 0, 0, 0, 0, 0, 0, 0, 0, 0, 0xFB]) 2 (htons 5353)
  | .inet => put (put (fresh f) 4 [224, 0, 0, 251]) 2 (htons 5353)

/-- The address looked at by `_is_local` and `_cache`, `libmdnsd/mdnsd.c:889-897`, `634-638`. -/
def ip (s : Bytes) : Ip :=
  if family s = 10 then .v6 (toVec 16 (s.drop 8)) else .v4 (toVec 4 (s.drop 4))

/-- What `sendto` is given, `libmdnsd/mdnsd.c:1962`, `src/mquery.c:648`. -/
def sent (s : Bytes) : Bytes := s.take (len s)

/-- `recvfrom` writes the address of the sender, at most `ssize` bytes of it, and sets `ssize` to its length.
`libmdnsd/mdnsd.c:1928`, `src/mquery.c:633`. -/
def recvfrom (s : Bytes) (ssize : Nat) (sender : Bytes) : Bytes × Nat :=
  (put s 0 (sender.take ssize), sender.length)

/-- The loop of `process_in`, `libmdnsd/mdnsd.c:1919-1942`, and that of `mquery`, `src/mquery.c:632-638`: `from` at each call of
`mdnsd_in`.  `ssize` is set before the loop only. -/
def loop (s : Bytes) (ssize : Nat) : List Bytes → List Bytes
  | [] => []
  | a :: t =>
    let r := recvfrom s ssize a
    r.1 :: loop r.1 r.2 t

/-- With the size at first, `libmdnsd/mdnsd.c:1923`, `src/mquery.c:632`. -/
def froms (s : Bytes) (senders : List Bytes) : List Bytes := loop s 128 senders

end Mdns.Inet
