import Verif.Model.Sockets
import Verif.Model.Daemon

/-!
# C89: the sockets of the programs
-/

namespace Mdns.Net

/-- A socket that lets others of its kind use its port. -/
def Shares (s : Sock) : Prop := s.reuseAddr = true ∧ (s.family = .inet6 → s.v6only = true)

/-- A socket for multicast DNS on an interface: it does not block, hears what others send to the group the library sends
to, on that interface, and sends there, with the given hop limit; what it sends is heard on its own system as well. -/
structure Ready (h : Host) (f : Family) (index ttl : Nat) (s : Sock) : Prop where
  family : s.family = f
  nonblock : s.nonblock = true
  port : s.port = some (mcast f).port
  member : Member h s (mcast f).ip index
  out : h.resolve s.out = index
  hops : s.hops = ttl
  unicast : s.ttl = 255
  loop : s.loop = true

/-- The first IPv4 address that is listed for the interface. -/
def Listed (name : Bytes) (ifs : Option (List (Bytes × Option Ip4))) (a : Ip4) : Prop :=
  ∃ pre post, ifs = some (pre ++ (name, some a) :: post) ∧ ∀ x ∈ pre, x.1 = name → x.2 = none

/-- The system can tell which interface is meant: by its index, or by its address, which it has then. -/
def Known (p : Plat) (h : Host) (ifs : Option (List (Bytes × Option Ip4))) (i : Info) : Prop :=
  p.mreqn = true ∨ ∃ a, (i.addr = a ∨ i.addr = ip4Zero ∧ Listed i.name ifs a) ∧ a ≠ ip4Zero ∧ h.byAddr a = i.index

theorem Listed.get {name : Bytes} {ifs : Option (List (Bytes × Option Ip4))} {a : Ip4} (h : Listed name ifs a) : getAddr name ifs = a := by
  obtain ⟨pre, post, rfl, hp⟩ := h
  unfold getAddr
  dsimp only
  induction pre with
  | nil => simp
  | cons x xs ih =>
    rw [List.cons_append, List.findSome?_cons]
    have hx : (if x.1 = name then x.2 else none) = none := by
      split
      · exact hp x List.mem_cons_self ‹_›
      · rfl
    rw [hx]
    exact ih fun y m => hp y (List.mem_cons_of_mem _ m)

theorem setAll_inv {h : Host} {no : Refused → Bool} {P : Sock → Prop} {l : List Opt}
    (hP : ∀ o ∈ l, ∀ s, P s → P (h.set s o)) : ∀ {k : Nat} {s : Sock}, P s → P (setAll h no l k s) := by
  induction l with
  | nil => exact fun h => h
  | cons o t ih =>
    intro k s hs
    unfold setAll
    refine ih (fun o ho => hP o (List.mem_cons_of_mem _ ho)) ?_
    by_cases hn : no (.opt k) = true
    · rw [if_pos hn]; exact hs
    · rw [if_neg hn]; exact hP o List.mem_cons_self s hs

theorem setAll_none {h : Host} {no : Refused → Bool} (hn : ∀ r, no r = false) (l : List Opt) :
    ∀ (k : Nat) (s : Sock), setAll h no l k s = l.foldl h.set s := by
  induction l with
  | nil => exact fun _ _ => rfl
  | cons o t ih => intro k s; unfold setAll; rw [if_neg (by simp [hn]), ih]; rfl

theorem bind_some {no : Refused → Bool} {others : List Sock} {s s' : Sock} (h : bind no others s = some s') :
    s' = { s with port := some 5353 } := by
  unfold bind at h
  split at h
  · cases h
  · split at h
    · cases h
    · exact (Option.some.inj h).symm

theorem bind_shares {no : Refused → Bool} {others : List Sock} {s : Sock} (hn : no .bind = false)
    (ho : ∀ t ∈ others, t.port = some 5353 → Shares t) (hs : Shares s) :
    bind no others s = some { s with port := some 5353 } := by
  unfold bind
  rw [if_neg (by simp [hn]), if_neg]
  rintro ⟨t, ht, hp, -, -, h, -⟩
  exact h ⟨hs.1, (ho t ht hp).1⟩

/-- **C89 (ready).** If the system refuses nothing and the other sockets on the port share it, a socket is made; it is
ready on its interface, and shares the port in turn. -/
theorem C89_ready (p : Plat) (h : Host) (owner : Nat) (no : Refused → Bool) (ifs : Option (List (Bytes × Option Ip4)))
    (others : List Sock) (f : Family) (i : Info) (ttl : Nat) (hn : ∀ r, no r = false)
    (ho : ∀ t ∈ others, t.port = some 5353 → Shares t) (hp : Known p h ifs i) (hi : i.index ≠ 0) :
    ∃ s, mdnsSocket p h owner no ifs others f i ttl = some s ∧ Shares s ∧ Ready h f i.index (max ttl 1) s ∧
      (f = .inet → h.rmem ≤ h.rmemMax → s.rcvBuf = 2 * h.rmem) ∧ (p.reusePort = true → s.reusePort = true) := by
  have ht : (if ttl = 0 then 1 else ttl) = max ttl 1 := by split <;> omega
  cases f with
  | inet =>
    unfold mdnsSocket mcSocket
    simp only [hn, ht, Bool.false_eq_true, if_false, setAll_none hn]
    have hv : h.resolve (if p.mreqn = true then Via.index i.index else
        .addr (if i.index ≠ 0 ∧ i.addr = ip4Zero then getAddr i.name ifs else i.addr)) = i.index := by
      rcases hp with hp | ⟨a, ha, hz, hb⟩
      · rw [if_pos hp, Host.resolve, if_neg hi]
      · by_cases hp : p.mreqn = true
        · rw [if_pos hp, Host.resolve, if_neg hi]
        · rw [if_neg hp]
          rcases ha with rfl | ⟨h0, ha⟩
          · rw [if_neg (fun h => hz h.2), Host.resolve, if_neg hz, hb]
          · rw [if_pos ⟨hi, h0⟩, ha.get, Host.resolve, if_neg hz, hb]
    obtain ⟨rp, ma, bd, mr⟩ := p
    unfold options4
    generalize (if (⟨rp, ma, bd, mr⟩ : Plat).mreqn = true then Via.index i.index else
        .addr (if i.index ≠ 0 ∧ i.addr = ip4Zero then getAddr i.name ifs else i.addr)) = via at hv
    rw [bind_shares (hn _) ho]
    · refine ⟨_, rfl, ⟨?_, ?_⟩, ⟨?_, ?_, ?_, ⟨via, ?_, hv⟩, ?_, ?_, ?_, ?_⟩, ?_, ?_⟩ <;>
        cases rp <;> cases ma <;> cases bd <;>
        simp [Host.set, hv, mcast, group4] <;> omega
    · constructor <;> cases rp <;> cases ma <;> cases bd <;> simp [Host.set]
  | inet6 =>
    obtain ⟨rp, ma, bd, mr⟩ := p
    unfold mdnsSocket mcSocket6
    simp only [hn, ht, Bool.false_eq_true, if_false, setAll_none hn]
    rw [bind_shares (hn _) ho]
    · refine ⟨_, rfl, ⟨?_, ?_⟩, ⟨?_, ?_, ?_, ⟨.index i.index, ?_, ?_⟩, ?_, ?_, ?_, ?_⟩, ?_, ?_⟩ <;>
        cases rp <;> cases bd <;>
        simp [options6, Host.set, Host.resolve, hi, mcast, group6]
    · constructor <;> cases rp <;> cases bd <;> simp [options6, Host.set, hi]

/-- What is asked of the system: who asks, for which family, interface and hop limit. -/
structure Req where
  owner : Nat
  family : Family
  info : Info
  ttl : Nat

/-- Sockets are made one after another, all successfully; the first list is of the sockets there are, the last of the new
ones. -/
inductive Opens (p : Plat) (h : Host) (no : Refused → Bool) (ifs : Option (List (Bytes × Option Ip4))) :
    List Req → List Sock → List Sock → Prop
  | nil (l : List Sock) : Opens p h no ifs [] l []
  | cons {r : Req} {rs : List Req} {l new : List Sock} {s : Sock}
      (e : mdnsSocket p h r.owner no ifs l r.family r.info r.ttl = some s) (t : Opens p h no ifs rs (l ++ [s]) new) :
      Opens p h no ifs (r :: rs) l (s :: new)

/-- **C89 (together).** Any number of programs of any users can have sockets for any interfaces and both families at the
same time: unless the system refuses for other reasons, no socket gets in the way of another, and each is ready. -/
theorem C89_together (p : Plat) (h : Host) (no : Refused → Bool) (ifs : Option (List (Bytes × Option Ip4)))
    (hn : ∀ r, no r = false) (rs : List Req) (hi : ∀ r ∈ rs, r.info.index ≠ 0 ∧ Known p h ifs r.info) (l : List Sock)
    (hl : ∀ t ∈ l, t.port = some 5353 → Shares t) :
    ∃ new, Opens p h no ifs rs l new ∧ new.length = rs.length ∧
      ∀ (k : Nat) (r : Req) (s : Sock), rs[k]? = some r → new[k]? = some s → Ready h r.family r.info.index (max r.ttl 1) s := by
  induction rs generalizing l with
  | nil => exact ⟨[], .nil l, rfl, fun k r s hr => by simp at hr⟩
  | cons r rs ih =>
    obtain ⟨s, e, hs, hr, -⟩ := C89_ready p h r.owner no ifs l r.family r.info r.ttl hn hl (hi r List.mem_cons_self).2 (hi r List.mem_cons_self).1
    obtain ⟨new, ho, hlen, hf⟩ := ih (fun r hr => hi r (List.mem_cons_of_mem _ hr)) (l ++ [s]) (fun t ht hp => by
      rcases List.mem_append.1 ht with ht | ht
      · exact hl t ht hp
      · rw [List.mem_singleton.1 ht]; exact hs)
    refine ⟨s :: new, .cons e ho, by simp [hlen], fun k r' s' h1 h2 => ?_⟩
    cases k with
    | zero =>
      simp only [List.getElem?_cons_zero, Option.some.injEq] at h1 h2
      subst h1 h2; exact hr
    | succ k => exact hf k r' s' (by simpa using h1) (by simpa using h2)

/-- **C89 (link).** What one ready socket sends to the destination of the library is heard by every ready socket of the
same family on the interface where it arrives; of a system without other sockets nothing is needed. -/
theorem C89_link {h : Host} {f : Family} {j t : Nat} {all : List Sock} {s : Sock} (hs : Ready h f j t s)
    (hd : s.device = [] ∨ s.device = h.name j) : Hears h all s (mcast f).ip (mcast f).port j :=
  ⟨hs.port, hd, .inl hs.member⟩

/-- **C89 (own interface).** Nothing else is heard: if the system refuses nothing, a packet is given to a socket only if it
arrived on the interface of the socket, wherever the system can restrict a socket to an interface. -/
theorem C89_own (p : Plat) (h : Host) (owner : Nat) (no : Refused → Bool) (ifs : Option (List (Bytes × Option Ip4)))
    (others all : List Sock) (f : Family) (i : Info) (ttl : Nat) (s : Sock) (hn : ∀ r, no r = false)
    (hi : i.index ≠ 0) (hname : i.name ≠ []) (huniq : ∀ j, h.name j = i.name ↔ j = i.index) (hd : p.bindToDevice = true)
    (e : mdnsSocket p h owner no ifs others f i ttl = some s) (g : Ip) (port j : Nat) (hh : Hears h all s g port j) :
    port = 5353 ∧ j = i.index := by
  have key : s.port = some 5353 ∧ s.device = i.name := by
    obtain ⟨rp, ma, bd, mr⟩ := p
    simp only at hd; subst hd
    cases f with
    | inet =>
      unfold mdnsSocket mcSocket at e
      simp only [hn, Bool.false_eq_true, if_false, setAll_none hn] at e
      rw [bind_some e]
      cases rp <;> cases ma <;> cases mr <;> simp [options4, Host.set]
    | inet6 =>
      unfold mdnsSocket mcSocket6 at e
      simp only [hn, Bool.false_eq_true, if_false, setAll_none hn] at e
      rw [bind_some e]
      cases rp <;> simp [options6, Host.set, hi]
  obtain ⟨h1, h2, -⟩ := hh
  rw [key.1] at h1
  rw [key.2] at h2
  refine ⟨(Option.some.inj h1).symm, ?_⟩
  rcases h2 with h2 | h2
  · exact absurd h2 hname
  · exact (huniq j).1 h2.symm

/-- **C89 (own group).** On a system with `IP_MULTICAST_ALL` an IPv4 socket hears exactly the group on its interface, no
matter what other sockets are members of, even where it cannot be restricted to an interface. -/
theorem C89_group (p : Plat) (h : Host) (owner : Nat) (no : Refused → Bool) (ifs : Option (List (Bytes × Option Ip4)))
    (others all : List Sock) (i : Info) (ttl : Nat) (s : Sock) (hn : ∀ r, no r = false) (hi : i.index ≠ 0)
    (huniq : ∀ j, h.name j = i.name ↔ j = i.index) (hp : p.mreqn = true) (hm : p.multicastAll = true)
    (e : mdnsSocket p h owner no ifs others .inet i ttl = some s) (g : Ip) (port j : Nat) :
    Hears h all s g port j ↔ g = (mcast .inet).ip ∧ port = 5353 ∧ j = i.index := by
  have key : s.port = some 5353 ∧ s.all = false ∧ s.joined = [((mcast .inet).ip, .index i.index)] ∧
      (s.device = [] ∨ s.device = i.name) := by
    obtain ⟨rp, ma, bd, mr⟩ := p
    simp only at hp hm; subst hp hm
    unfold mdnsSocket mcSocket at e
    simp only [hn, Bool.false_eq_true, if_false, setAll_none hn] at e
    rw [bind_some e]
    cases rp <;> cases bd <;> simp [options4, Host.set, group4, mcast]
  obtain ⟨k1, k2, k3, k4⟩ := key
  constructor
  · rintro ⟨h1, -, ⟨v, hv, hr⟩ | ⟨h3, -⟩⟩
    · rw [k3, List.mem_singleton] at hv
      obtain ⟨rfl, rfl⟩ := Prod.mk.inj hv
      rw [Host.resolve, if_neg hi] at hr
      rw [k1] at h1
      exact ⟨rfl, (Option.some.inj h1).symm, hr.symm⟩
    · rw [k2] at h3; cases h3
  · rintro ⟨rfl, rfl, rfl⟩
    refine ⟨k1, ?_, .inl ⟨.index i.index, by rw [k3]; exact List.mem_singleton.2 rfl, by rw [Host.resolve, if_neg hi]⟩⟩
    rcases k4 with k | k
    · exact .inl k
    · exact .inr (by rw [k, (huniq _).2 rfl])

/-- What a socket is whatever the system refuses. -/
structure Sane (h : Host) (f : Family) (i : Info) (ttl : Nat) (s : Sock) : Prop where
  family : s.family = f
  nonblock : s.nonblock = true
  loop : s.loop = true
  hops : s.hops = 1 ∨ s.hops = ttl
  unicast : s.ttl = 64 ∨ s.ttl = 255
  device : s.device = [] ∨ s.device = i.name
  joined : ∀ g j, Member h s g j → g = (mcast f).ip ∧ j = i.index
  out : s.out = .index 0 ∨ h.resolve s.out = i.index

/-- **C89 (refusals).** Whatever the system refuses: a socket that is returned does not block, is bound to the port, is a
member of no other group and on no other interface, and has no other hop limit than the one asked for or the default. -/
theorem C89_refused (p : Plat) (h : Host) (owner : Nat) (no : Refused → Bool) (ifs : Option (List (Bytes × Option Ip4)))
    (others : List Sock) (f : Family) (i : Info) (ttl : Nat) (s : Sock) (hp : p.mreqn = true) (hi : i.index ≠ 0)
    (e : mdnsSocket p h owner no ifs others f i ttl = some s) : s.port = some 5353 ∧ Sane h f i (max ttl 1) s := by
  have ht : (if ttl = 0 then 1 else ttl) = max ttl 1 := by split <;> omega
  have step : ∀ o : Opt, ∀ s, (o ∈ [Opt.reusePort, .reuseAddr, .v6only, .loop true, .all false, .hops (max ttl 1), .ttl 255,
      .out (.index i.index), .device i.name, .join (mcast f).ip (.index i.index)] ∨ ∃ n, o = .rcvBuf n) →
      Sane h f i (max ttl 1) s → Sane h f i (max ttl 1) (h.set s o) := by
    rintro o s ho ⟨a, b, c, d, u, v, j, w⟩
    simp only [List.mem_cons, List.not_mem_nil, or_false] at ho
    rcases ho with (rfl | rfl | rfl | rfl | rfl | rfl | rfl | rfl | rfl | rfl) | ⟨n, rfl⟩
    · exact ⟨a, b, c, d, u, v, j, w⟩
    · exact ⟨a, b, c, d, u, v, j, w⟩
    · exact ⟨a, b, c, d, u, v, j, w⟩
    · exact ⟨a, b, rfl, d, u, v, j, w⟩
    · exact ⟨a, b, c, d, u, v, j, w⟩
    · exact ⟨a, b, c, .inr rfl, u, v, j, w⟩
    · exact ⟨a, b, c, d, .inr rfl, v, j, w⟩
    · exact ⟨a, b, c, d, u, v, j, .inr (by simp [Host.set, Host.resolve, hi])⟩
    · exact ⟨a, b, c, d, u, .inr rfl, j, w⟩
    · refine ⟨a, b, c, d, u, v, ?_, w⟩
      rintro g k ⟨x, hx, hr⟩
      rcases List.mem_append.1 hx with hx | hx
      · exact j g k ⟨x, hx, hr⟩
      · obtain ⟨rfl, rfl⟩ := Prod.mk.inj (List.mem_singleton.1 hx)
        rw [Host.resolve, if_neg hi] at hr
        exact ⟨rfl, hr.symm⟩
    · exact ⟨a, b, c, d, u, v, j, w⟩
  have fin : ∀ s0 : Sock, Sane h f i (max ttl 1) s0 → Sane h f i (max ttl 1) { s0 with port := some 5353 } :=
    fun s0 ⟨a, b, c, d, u, v, j, w⟩ => ⟨a, b, c, d, u, v, j, w⟩
  cases f with
  | inet =>
    unfold mdnsSocket mcSocket at e
    simp only [ht] at e
    split at e
    · cases e
    · rw [bind_some e]
      refine ⟨rfl, fin _ (setAll_inv (fun o ho s => step o s ?_) ⟨rfl, rfl, rfl, .inl rfl, .inl rfl, .inl rfl, ?_, .inl rfl⟩)⟩
      · obtain ⟨rp, ma, bd, mr⟩ := p
        simp only at hp; subst hp
        cases rp <;> cases ma <;> cases bd <;> cases no .getsockopt <;>
          simp [options4, group4, mcast] at ho ⊢ <;> grind
      · rintro g j ⟨v, hv, -⟩; cases hv
  | inet6 =>
    unfold mdnsSocket mcSocket6 at e
    simp only [ht] at e
    split at e
    · cases e
    · rw [bind_some e]
      refine ⟨rfl, fin _ (setAll_inv (fun o ho s => step o s ?_) ⟨rfl, rfl, rfl, .inl rfl, .inl rfl, .inl rfl, ?_, .inl rfl⟩)⟩
      · obtain ⟨rp, ma, bd, mr⟩ := p
        cases rp <;> cases bd <;>
          simp [options6, group6, mcast, hi] at ho ⊢ <;> grind
      · rintro g j ⟨v, hv, -⟩; cases hv

/-- **C89 (hop limits).** `mdnsd` sends with the hop limit of `-t`, and `mquery` with 1, unless the system refuses to set
it.  Without an interface `mquery` has no socket. -/
theorem C89_hops (p : Plat) (h : Host) (owner : Nat) (no : Refused → Bool) (ifs : Option (List (Bytes × Option Ip4)))
    (others : List Sock) (f : Family) (hn : ∀ r, no r = false) (ho : ∀ t ∈ others, t.port = some 5353 → Shares t)
    (hp : p.mreqn = true) :
    (∀ (i : Info) (t : Fin 255), i.index ≠ 0 → ∃ s, daemonSocket p h owner no ifs others f i (some t) = some s ∧
      Ready h f i.index (t.val + 1) s) ∧
    (∀ (index : Bytes → Nat) (n : Bytes), index n ≠ 0 → ∃ s, querySocket p h owner no ifs others f index (some n) = some s ∧
      Ready h f (index n) 1 s) ∧
    ∀ index, querySocket p h owner no ifs others f index none = none := by
  refine ⟨fun i t hi => ?_, fun index n hi => ?_, fun _ => rfl⟩
  · obtain ⟨s, e, -, r, -⟩ := C89_ready p h owner no ifs others f i (t.val + 1) hn ho (.inl hp) hi
    rw [show max (t.val + 1) 1 = t.val + 1 by omega] at r
    exact ⟨s, e, r⟩
  · obtain ⟨s, e, -, r, -⟩ := C89_ready p h owner no ifs others f { name := n.take 15, index := index n } 0 hn ho (.inl hp) hi
    exact ⟨s, e, r⟩

/-! ### Where it goes wrong -/

namespace Sample

def linux : Plat := ⟨true, true, true, true⟩
def computer : Host where
  name j := if j = 2 then [0x65, 0x30] else if j = 3 then [0x65, 0x31] else []
  byAddr _ := 2
  usual := 2
  rmem := 212992
  rmemMax := 212992
def e0 : Info := { name := [0x65, 0x30], index := 2 }
def e1 : Info := { name := [0x65, 0x31], index := 3 }
def deaf : Sock :=
  { family := .inet, owner := 0, nonblock := true, rcvBuf := 425984, reusePort := true, reuseAddr := true, all := false,
    hops := 255, ttl := 255, out := .index 2, device := [0x65, 0x30], port := some 5353 }

end Sample

open Sample

/-- Without `-t` the hop limit is 255, not 1 as the usage text says (`src/mdnsd.c:60`, `:284`): the packets are not confined to
the link by it. -/
theorem C89_default_counterexample : ∃ s, daemonSocket linux computer 0 (fun _ => false) none [] .inet e0 none = some s ∧
    s.hops = 255 := ⟨_, rfl, by decide⟩

/-- When the group cannot be joined (e.g. too many memberships) a socket is returned all the same, which does not hear
what others send. -/
theorem C89_deaf_counterexample : ∃ (no : Refused → Bool) (s : Sock), daemonSocket linux computer 0 no none [] .inet e0 none = some s ∧
    ∀ j, ¬ Hears computer [s] s (mcast .inet).ip 5353 j := by
  refine ⟨fun r => r == .opt 9, deaf, by decide +kernel, ?_⟩
  rintro j ⟨-, -, ⟨v, hv, -⟩ | ⟨ha, -⟩⟩
  · cases hv
  · cases ha

/-- An IPv6 socket that the system does not allow to be restricted to its interface (which needs a privilege on older
systems) hears packets from other interfaces, as other groups are not switched off. -/
theorem C89_foreign_counterexample : ∃ (no : Refused → Bool) (s t : Sock),
    daemonSocket linux computer 0 no none [t] .inet6 e0 none = some s ∧
    daemonSocket linux computer 0 (fun _ => false) none [] .inet6 e1 none = some t ∧
    Hears computer [t, s] s (mcast .inet6).ip 5353 3 := by
  refine ⟨fun r => r == .opt 7, _, _, rfl, rfl, by decide, .inl (by decide), .inr ⟨by decide, _, List.mem_cons_self, by decide, .index 3, by decide, by decide⟩⟩

/-- Four sockets: `mdnsd` on two interfaces for IPv4, on one for IPv6, and `mquery` of another user. -/
example : ∃ new, Opens linux computer (fun _ => false) none
      [⟨0, .inet, e0, 255⟩, ⟨0, .inet, e1, 255⟩, ⟨0, .inet6, e0, 255⟩, ⟨1, .inet, e0, 0⟩] [] new ∧ new.length = 4 := by
  obtain ⟨new, h, f⟩ := C89_together linux computer (fun _ => false) none (fun _ => rfl)
    [⟨0, .inet, e0, 255⟩, ⟨0, .inet, e1, 255⟩, ⟨0, .inet6, e0, 255⟩, ⟨1, .inet, e0, 0⟩]
    (fun r hr => ⟨by revert r; decide, .inl rfl⟩) [] (by simp)
  exact ⟨new, h, f.1⟩

/-- Without indices the interface is found by the address `getifaddrs` reports for it. -/
example : Known ⟨true, false, false, false⟩ computer (some [([0x65, 0x31], none), ([0x65, 0x30], none),
    ([0x65, 0x30], some #v[192, 168, 1, 2])]) e0 :=
  .inr ⟨#v[192, 168, 1, 2], .inr ⟨rfl, [([0x65, 0x31], none), ([0x65, 0x30], none)], [], rfl, by simp⟩, by decide, rfl⟩

/-- The names in the example are different. -/
example : ∀ j, computer.name j = e0.name ↔ j = e0.index := by
  intro j
  simp only [computer, e0]
  by_cases h2 : j = 2
  · simp [h2]
  · by_cases h3 : j = 3
    · simp [h3]
    · simp [h2, h3]

end Mdns.Net
