import Verif.Model.Parser

/-!
# The receive buffer of `process_in`
-/

namespace Mdns

/-- Bytes from the start of `_packet` to the end of `struct message`: the array
has 65535 bytes at offset 4160 (LP64) and the structure is padded to a multiple
of 8, which leaves one byte (`libmdnsd/1035.h:103-120`). -/
def structCap : Nat := 65536

/-- Size of the receive buffer, `static unsigned char buf[MAX_PACKET_LEN + 1]`,
`libmdnsd/mdnsd.c:1921`. -/
def recvSize : Nat := 65536

/-- `recvfrom` overwrites the first bytes of the buffer, `libmdnsd/mdnsd.c:1928`;
`old` is what the buffer held. -/
def received (old : Nat → UInt8) (d : Bytes) : Nat → UInt8 :=
  fun i => if i < d.length then d.getD i 0 else old i

end Mdns
