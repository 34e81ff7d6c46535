import Verif.Model.Inet

/-!
# C122: answers go back to the address a question came from
-/

namespace Mdns.Inet

/-! ### Specification: the addresses of the system -/

/-- An address with all that belongs to it. -/
inductive SockAddr where
  | v4 (ip : Ip4) (port : UInt16)
  | v6 (ip : Ip6) (port : UInt16) (flow scope : Vector UInt8 4)

/-- A number of 16 bits, high byte first. -/
def big (p : UInt16) : Bytes := [UInt8.ofNat (p.toNat / 256), UInt8.ofNat (p.toNat % 256)]

/-- As `struct sockaddr_in` and `struct sockaddr_in6`. -/
def SockAddr.encode : SockAddr → Bytes
  | .v4 ip port => [2, 0] ++ big port ++ ip.toList ++ List.replicate 8 0
  | .v6 ip port flow scope => [10, 0] ++ big port ++ flow.toList ++ ip.toList ++ scope.toList

def SockAddr.family : SockAddr → Family
  | .v4 .. => .inet
  | .v6 .. => .inet6

def SockAddr.port : SockAddr → UInt16
  | .v4 _ p => p
  | .v6 _ p _ _ => p

def SockAddr.ip : SockAddr → Ip
  | .v4 a _ => .v4 a
  | .v6 a _ _ _ => .v6 a

def SockAddr.withPort : SockAddr → UInt16 → SockAddr
  | .v4 a _, p => .v4 a p
  | .v6 a _ f s, p => .v6 a p f s

/-! ### Proofs -/

def size : Family → Nat
  | .inet => 16
  | .inet6 => 28

theorem encode_length (a : SockAddr) : a.encode.length = size a.family := by
  cases a <;> simp [SockAddr.encode, big, SockAddr.family, size]

theorem len_encode (a : SockAddr) (r : Bytes) : len (a.encode ++ r) = size a.family := by
  cases a <;> rfl

theorem sent_encode (a : SockAddr) (r : Bytes) : sent (a.encode ++ r) = a.encode := by
  unfold sent
  rw [len_encode, ← encode_length, List.take_left]

theorem port_encode (a : SockAddr) (r : Bytes) : port (a.encode ++ r) = a.port.toNat := by
  have h : ∀ p : UInt16, (UInt8.ofNat (p.toNat / 256)).toNat * 256 + (UInt8.ofNat (p.toNat % 256)).toNat = p.toNat := by
    intro p
    have := p.toNat_lt
    rw [UInt8.toNat_ofNat', UInt8.toNat_ofNat']
    omega
  cases a <;> exact h _

theorem toVec_toList {n : Nat} (v : Vector UInt8 n) (r : Bytes) : toVec n (v.toList ++ r) = v := by
  unfold toVec
  ext i hi
  simp [List.getD_eq_getElem?_getD, List.getElem?_append]

theorem ip_encode (a : SockAddr) (r : Bytes) : ip (a.encode ++ r) = a.ip := by
  cases a with
  | v4 a p =>
    have e : ip ((SockAddr.v4 a p).encode ++ r) = .v4 (toVec 4 ((a.toList ++ List.replicate 8 0) ++ r)) := rfl
    rw [e, List.append_assoc, toVec_toList]
    rfl
  | v6 a p f s =>
    have e : ip ((SockAddr.v6 a p f s).encode ++ r) = .v6 (toVec 16 (((f.toList ++ a.toList ++ s.toList) ++ r).drop 4)) := rfl
    have hf : f.toList.length = 4 := by simp
    rw [e, List.append_assoc, List.append_assoc, List.drop_left' hf, toVec_toList]
    rfl

theorem recv_encode (s : Bytes) (n : Nat) (a : SockAddr) (h : size a.family ≤ n) :
    ∃ r, recvfrom s n a.encode = (a.encode ++ r, size a.family) := by
  unfold recvfrom put
  have ht : a.encode.take n = a.encode := List.take_of_length_le (by rw [encode_length]; exact h)
  rw [ht, encode_length]
  exact ⟨_, rfl⟩

theorem loop_spec (f : Family) : ∀ (as : List SockAddr) (s : Bytes) (n : Nat), (∀ a ∈ as, a.family = f) → size f ≤ n →
    ∃ rs : List Bytes, loop s n (as.map SockAddr.encode) = (as.zip rs).map (fun p => p.1.encode ++ p.2) ∧ rs.length = as.length
  | [], _, _, _, _ => ⟨[], rfl, rfl⟩
  | a :: as, s, n, hf, hn => by
    have ha := hf a (.head _)
    obtain ⟨r, e⟩ := recv_encode s n a (by rw [ha]; exact hn)
    obtain ⟨rs, e', hl⟩ := loop_spec f as (a.encode ++ r) (size a.family) (fun b m => hf b (.tail _ m)) (by rw [ha]; exact Nat.le_refl _)
    refine ⟨r :: rs, ?_, by simp [hl]⟩
    show (recvfrom s n a.encode).1 :: loop (recvfrom s n a.encode).1 (recvfrom s n a.encode).2 _ = _
    rw [e, e']
    rfl

/-- **C122 (back).** Whatever was in memory before: of the packets read from a socket, each is handled with the address and
port of its own sender, and an answer to it is sent to exactly the address the system gave, with all that belongs to it
(for IPv6 the scope, without which link-local addresses cannot be reached). -/
theorem C122_back (f : Family) (s : Bytes) (as : List SockAddr) (hf : ∀ a ∈ as, a.family = f) :
    (froms s (as.map SockAddr.encode)).map sent = as.map SockAddr.encode ∧
    (froms s (as.map SockAddr.encode)).map port = as.map (·.port.toNat) ∧
    (froms s (as.map SockAddr.encode)).map ip = as.map SockAddr.ip := by
  obtain ⟨rs, e, hl⟩ := loop_spec f as s 128 hf (by cases f <;> decide)
  have hz : (as.zip rs).map Prod.fst = as := List.map_fst_zip (by omega)
  unfold froms
  rw [e]
  simp only [List.map_map, Function.comp_def, sent_encode, port_encode, ip_encode]
  refine ⟨?_, ?_, ?_⟩
  · conv => rhs; rw [← hz]
    rw [List.map_map]; rfl
  · conv => rhs; rw [← hz]
    rw [List.map_map]; rfl
  · conv => rhs; rw [← hz]
    rw [List.map_map]; rfl

/-- **C122 (multicast).** All else goes to port 5353 of 224.0.0.251 or ff02::fb. -/
theorem C122_multicast (f : Family) : ∃ a : SockAddr, a.family = f ∧ sent (mcast f) = a.encode ∧ a.port = 5353 ∧
    a.ip = match f with
      | .inet => .v4 #v[224, 0, 0, 251]
      | .inet6 => .v6 #v[0xFF, 2, 0, 0, 0, 0, 0, 0, 0, 0, 0, 0, 0, 0, 0, 0xFB] := by
  cases f with
  | inet => exact ⟨.v4 #v[224, 0, 0, 251] 5353, rfl, by decide +kernel, rfl, rfl⟩
  | inet6 => exact ⟨.v6 #v[0xFF, 2, 0, 0, 0, 0, 0, 0, 0, 0, 0, 0, 0, 0, 0, 0xFB] 5353 #v[0, 0, 0, 0] #v[0, 0, 0, 0], rfl,
      by decide +kernel, rfl, rfl⟩

/-- **C122 (port).** Setting the port of an address changes nothing else. -/
theorem C122_port (a : SockAddr) (r : Bytes) (p : UInt16) : setPort (a.encode ++ r) p = (a.withPort p).encode ++ r := by
  cases a <;> rfl

/-- **C122 (any).** The wildcard address. -/
theorem C122_any (f : Family) (p : UInt16) : ∃ a : SockAddr, a.family = f ∧ sent (anyaddr f p) = a.encode ∧ a.port = p ∧
    a.ip = match f with
      | .inet => .v4 ip4Zero
      | .inet6 => .v6 ip6Zero := by
  cases f with
  | inet => exact ⟨.v4 ip4Zero p, rfl, rfl, rfl, rfl⟩
  | inet6 => exact ⟨.v6 ip6Zero p #v[0, 0, 0, 0] #v[0, 0, 0, 0], rfl, rfl, rfl, rfl⟩

/-- No two addresses look alike to the system, so that the right bytes are the right address. -/
theorem C122_distinct (a b : SockAddr) (h : a.encode = b.encode) : a.ip = b.ip ∧ a.port = b.port := by
  have h1 := ip_encode a []
  have h2 := port_encode a []
  rw [h, ip_encode] at h1
  rw [h, port_encode] at h2
  exact ⟨h1.symm, (UInt16.toNat_inj.1 h2).symm⟩

/-! ### Samples -/

/-- Two questions by IPv6 from link-local addresses, with garbage in memory at first. -/
example : (froms (List.replicate 128 0xAA) [
      (SockAddr.v6 #v[0xFE, 0x80, 0, 0, 0, 0, 0, 0, 0, 0, 0, 0, 0, 0, 0, 1] 40000 #v[0, 0, 0, 0] #v[3, 0, 0, 0]).encode,
      (SockAddr.v6 #v[0xFE, 0x80, 0, 0, 0, 0, 0, 0, 0, 0, 0, 0, 0, 0, 0, 2] 5353 #v[0, 0, 0, 0] #v[3, 0, 0, 0]).encode]).map
    (fun s => (port s, (sent s).drop 24)) = [(40000, [3, 0, 0, 0]), (5353, [3, 0, 0, 0])] := by decide +kernel

/-- Why all have to be of the family of the socket: `ssize` is not set again. -/
example : (froms (List.replicate 128 0xAA) [(SockAddr.v4 #v[10, 0, 0, 1] 40000).encode,
      (SockAddr.v6 #v[0xFE, 0x80, 0, 0, 0, 0, 0, 0, 0, 0, 0, 0, 0, 0, 0, 1] 40000 #v[0, 0, 0, 0] #v[3, 0, 0, 0]).encode]).map
    (fun s => (sent s).drop 24) = [[], [0xAA, 0xAA, 0xAA, 0xAA]] := by decide +kernel

end Mdns.Inet
