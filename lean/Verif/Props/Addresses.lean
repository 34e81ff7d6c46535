import Verif.Lemmas.Hosts
import Verif.Props.Receiving

/-!
# C38: setting the addresses of a host
-/

namespace Mdns

/-! ### Specification -/

/-- The host has this address: a record that is not being withdrawn. -/
def HasV4 (d : D Ptrs) (host : Bytes) (ip : Ip4) : Prop :=
  ∃ r x, d.c.recs r = some x ∧ x.rr.name = host ∧ x.rr.type = 1 ∧ x.rr.ttl ≠ 0 ∧ x.rr.ip = ip

def HasV6 (d : D Ptrs) (host : Bytes) (ip : Ip6) : Prop :=
  ∃ r x, d.c.recs r = some x ∧ x.rr.name = host ∧ x.rr.type = 28 ∧ x.rr.ttl ≠ 0 ∧ x.rr.ip6 = ip

/-- No record with one of the addresses is being withdrawn. -/
def NoneLeaving4 (d : D Ptrs) (host : Bytes) (a : List Ip4) : Prop :=
  ∀ r x, d.c.recs r = some x → x.rr.name = host → x.rr.type = 1 → x.rr.ttl = 0 → x.rr.ip ∉ a

def NoneLeaving6 (d : D Ptrs) (host : Bytes) (a : List Ip6) : Prop :=
  ∀ r x, d.c.recs r = some x → x.rr.name = host → x.rr.type = 28 → x.rr.ttl = 0 → x.rr.ip6 ∉ a

/-- Nothing happens to the record: its data, its state and the queue it is in stay the same. -/
def Untouched (d d' : D Ptrs) (r : Nat) : Prop :=
  d'.c.recs r = d.c.recs r ∧ ∀ w, r ∈ d'.q.walk w ↔ r ∈ d.q.walk w

/-! ### Proofs -/

theorem untouched_of {env : Env} {d d' : D Ptrs} (h : Reach env d) (h' : Reach env d') {r : Nat}
    (hv : view d'.c d'.lists r = view d.c d.lists r) : Untouched d d' r := by
  refine ⟨congrArg View.x hv, fun w => ?_⟩
  have e : d'.lists.place r = d.lists.place r := congrArg View.at_ hv
  rw [show r ∈ d'.q.walk w ↔ d'.lists.place r = some w from mem_place h'.inv.rinv w,
    show r ∈ d.q.walk w ↔ d.lists.place r = some w from mem_place h.inv.rinv w, e]

theorem fits4 (a : List Ip4) : ∀ w ∈ a.map Ip.v4, w.fits 1 := by
  intro w m
  obtain ⟨b, _, rfl⟩ := List.mem_map.mp m
  rfl

theorem fits6 (a : List Ip6) : ∀ w ∈ a.map Ip.v6, w.fits 28 := by
  intro w m
  obtain ⟨b, _, rfl⟩ := List.mem_map.mp m
  simp [Ip.fits]

/-- The host has the address, for both families. -/
def Core.Has (c : Core) (host : Bytes) (type : Nat) (ip : Ip) : Prop :=
  ∃ r x, c.recs r = some x ∧ x.Of host type ∧ x.rr.ttl ≠ 0 ∧ x.rr.addrOf type = ip

def Core.NoneLeaving (c : Core) (host : Bytes) (type : Nat) (want : List Ip) : Prop :=
  ∀ r x, c.recs r = some x → x.Of host type → x.rr.ttl = 0 → x.rr.addrOf type ∉ want

theorem addrOf4 {x : Rec} {ip : Ip4} : x.rr.addrOf 1 = .v4 ip ↔ x.rr.ip = ip := by simp [Answer.addrOf]
theorem addrOf6 {x : Rec} {ip : Ip6} : x.rr.addrOf 28 = .v6 ip ↔ x.rr.ip6 = ip := by simp [Answer.addrOf]

theorem has4 {d : D Ptrs} {host : Bytes} {ip : Ip4} : HasV4 d host ip ↔ d.c.Has host 1 (.v4 ip) := by
  unfold HasV4 Core.Has Rec.Of
  constructor
  · rintro ⟨r, x, h1, h2, h3, h4, h5⟩
    exact ⟨r, x, h1, ⟨h3, h2⟩, h4, addrOf4.mpr h5⟩
  · rintro ⟨r, x, h1, ⟨h3, h2⟩, h4, h5⟩
    exact ⟨r, x, h1, h2, h3, h4, addrOf4.mp h5⟩

theorem has6 {d : D Ptrs} {host : Bytes} {ip : Ip6} : HasV6 d host ip ↔ d.c.Has host 28 (.v6 ip) := by
  unfold HasV6 Core.Has Rec.Of
  constructor
  · rintro ⟨r, x, h1, h2, h3, h4, h5⟩
    exact ⟨r, x, h1, ⟨h3, h2⟩, h4, addrOf6.mpr h5⟩
  · rintro ⟨r, x, h1, ⟨h3, h2⟩, h4, h5⟩
    exact ⟨r, x, h1, h2, h3, h4, addrOf6.mp h5⟩

theorem NoneLeaving4.core {d : D Ptrs} {host : Bytes} {a : List Ip4} (h : NoneLeaving4 d host a) :
    d.c.NoneLeaving host 1 (a.map Ip.v4) := by
  intro r x hx ho ht m
  obtain ⟨ip, mi, e⟩ := List.mem_map.mp m
  have := addrOf4.mp e.symm
  exact h r x hx ho.2 ho.1 ht (this ▸ mi)

theorem NoneLeaving6.core {d : D Ptrs} {host : Bytes} {a : List Ip6} (h : NoneLeaving6 d host a) :
    d.c.NoneLeaving host 28 (a.map Ip.v6) := by
  intro r x hx ho ht m
  obtain ⟨ip, mi, e⟩ := List.mem_map.mp m
  have := addrOf6.mp e.symm
  exact h r x hx ho.2 ho.1 ht (this ▸ mi)

theorem Updated.back {host : Bytes} {type : Nat} {want : List Ip} {c c' : Core} {l l' : Lists}
    (h : Updated host type want c l c' l') {r : Nat} {x' : Rec} (hx : c'.recs r = some x') :
    (c.recs r = none ∧ x'.Of host type ∧ x'.rr.ttl ≠ 0 ∧ x'.rr.addrOf type ∈ want) ∨
      (c.recs r = some x' ∧ ¬ (x'.Of host type ∧ x'.rr.addrOf type ∉ want)) ∨
      (x'.Of host type ∧ x'.rr.ttl = 0 ∧ x'.rr.addrOf type ∉ want ∧ ∃ x, c.recs r = some x ∧ ¬ x.Probing ∧
        x' = { x with rr := { x.rr with ttl := 0 } }) := by
  cases hc : c.recs r with
  | none =>
    obtain ⟨h1, h2, h3, _⟩ := h.new r x' hc hx
    exact .inl ⟨rfl, h1, h2, h3⟩
  | some x =>
    right
    by_cases hn : x.Of host type ∧ x.rr.addrOf type ∉ want
    · right
      obtain ⟨d1, d2⟩ := h.drop r x hc hn.1 hn.2
      by_cases hp : x.Probing
      · rw [d1 hp] at hx; cases hx
      · rw [d2 hp] at hx
        cases hx
        exact ⟨hn.1, rfl, hn.2, x, rfl, hp, rfl⟩
    · left
      have : c'.recs r = c.recs r := congrArg View.x (h.keep r x hc hn)
      rw [this, hc] at hx
      cases hx
      exact ⟨rfl, hn⟩

theorem Updated.exact {host : Bytes} {type : Nat} {want : List Ip} {c c' : Core} {l l' : Lists}
    (h : Updated host type want c l c' l') (hn : c.NoneLeaving host type want) (ip : Ip) : c'.Has host type ip ↔ ip ∈ want := by
  constructor
  · rintro ⟨r, x, hx, ho, ht, rfl⟩
    rcases h.back hx with h | h | h
    · exact h.2.2.2
    · exact Decidable.not_not.mp fun hm => h.2 ⟨ho, hm⟩
    · exact absurd h.2.1 ht
  · intro m
    obtain ⟨r, x, hx, ho, ha⟩ := h.all ip m
    refine ⟨r, x, hx, ho, fun ht => ?_, ha⟩
    rcases h.back hx with h | h | h
    · exact h.2.2.1 ht
    · exact hn r x h.1 ho ht (ha ▸ m)
    · exact h.2.2.1 (ha ▸ m)

theorem Updated.none_leaving {host : Bytes} {type : Nat} {want : List Ip} {c c' : Core} {l l' : Lists}
    (h : Updated host type want c l c' l') (hn : c.NoneLeaving host type want) : c'.NoneLeaving host type want := by
  intro r x hx ho ht m
  rcases h.back hx with h | h | h
  · exact h.2.2.1 ht
  · exact hn r x h.1 ho ht m
  · exact h.2.2.1 m

/-- Records of other names or types. -/
theorem Updated.other {host : Bytes} {type : Nat} {want : List Ip} {c c' : Core} {l l' : Lists}
    (h : Updated host type want c l c' l') {r : Nat} {x : Rec} (hx : ¬ x.Of host type) :
    c'.recs r = some x ↔ c.recs r = some x := by
  constructor
  · intro h'
    rcases h.back h' with h | h | h
    · exact absurd h.2.1 hx
    · exact h.1
    · exact absurd h.1 hx
  · intro h'
    have : c'.recs r = c.recs r := congrArg View.x (h.keep r x h' fun h => hx h.1)
    rw [this]
    exact h'

theorem setAddresses_upd {env : Env} {d d' : D Ptrs} (h : Reach env d) {host : Bytes} {a : List Ip4} {o : OpOut}
    (e : Mdns.step env (.setAddresses host a) d = .ok (o, d')) :
    Updated host 1 (a.map Ip.v4) d.c d.lists d'.c d'.lists ∧ Reach env d' := by
  have hd := h.did (o := .setAddresses host a) trivial e
  refine ⟨?_, h.step (o := .setAddresses host a) trivial e⟩
  generalize d'.c = c', d'.lists = l' at hd
  cases hd with
  | setAddresses n => exact n.updated (fits4 a)

theorem setIpv6Addresses_upd {env : Env} {d d' : D Ptrs} (h : Reach env d) {host : Bytes} {a : List Ip6} {o : OpOut}
    (e : Mdns.step env (.setIpv6Addresses host a) d = .ok (o, d')) :
    Updated host 28 (a.map Ip.v6) d.c d.lists d'.c d'.lists ∧ Reach env d' := by
  have hd := h.did (o := .setIpv6Addresses host a) trivial e
  refine ⟨?_, h.step (o := .setIpv6Addresses host a) trivial e⟩
  generalize d'.c = c', d'.lists = l' at hd
  cases hd with
  | setIpv6Addresses n => exact n.updated (fits6 a)

/-- C38, the addresses: after `mdnsd_set_addresses_for_host` the host has exactly the given IPv4
addresses.  Missing: when a record with one of these addresses is being withdrawn at the time of the call
the address is lost, see the counterexample. -/
theorem C38_v4_exact_partial {env : Env} {d d' : D Ptrs} (h : Reach env d) {host : Bytes} {a : List Ip4} {o : OpOut}
    (hn : NoneLeaving4 d host a) (e : Mdns.step env (.setAddresses host a) d = .ok (o, d')) (ip : Ip4) :
    HasV4 d' host ip ↔ ip ∈ a := by
  rw [has4, (setAddresses_upd h e).1.exact hn.core]
  simp

/-- C38, the addresses: IPv6. -/
theorem C38_v6_exact_partial {env : Env} {d d' : D Ptrs} (h : Reach env d) {host : Bytes} {a : List Ip6} {o : OpOut}
    (hn : NoneLeaving6 d host a) (e : Mdns.step env (.setIpv6Addresses host a) d = .ok (o, d')) (ip : Ip6) :
    HasV6 d' host ip ↔ ip ∈ a := by
  rw [has6, (setIpv6Addresses_upd h e).1.exact hn.core]
  simp

/-- C38, the other records: records of other names and types, and those with a wanted address,
are untouched; what is new are records of the host and type. -/
theorem C38_v4_others {env : Env} {d d' : D Ptrs} (h : Reach env d) {host : Bytes} {a : List Ip4} {o : OpOut}
    (e : Mdns.step env (.setAddresses host a) d = .ok (o, d')) :
    (∀ r x, d.c.recs r = some x → x.rr.name ≠ host ∨ x.rr.type ≠ 1 ∨ x.rr.ip ∈ a → Untouched d d' r) ∧
      ∀ r x, d.c.recs r = none → d'.c.recs r = some x → x.rr.name = host ∧ x.rr.type = 1 := by
  obtain ⟨u, h'⟩ := setAddresses_upd h e
  refine ⟨fun r x hx hc => untouched_of h h' (u.keep r x hx ?_), fun r x h1 h2 => ⟨(u.new r x h1 h2).1.2, (u.new r x h1 h2).1.1⟩⟩
  rintro ⟨ho, hm⟩
  rcases hc with hc | hc | hc
  · exact hc ho.2
  · exact hc ho.1
  · exact hm (List.mem_map.mpr ⟨_, hc, (addrOf4.mpr rfl).symm⟩)

theorem C38_v6_others {env : Env} {d d' : D Ptrs} (h : Reach env d) {host : Bytes} {a : List Ip6} {o : OpOut}
    (e : Mdns.step env (.setIpv6Addresses host a) d = .ok (o, d')) :
    (∀ r x, d.c.recs r = some x → x.rr.name ≠ host ∨ x.rr.type ≠ 28 ∨ x.rr.ip6 ∈ a → Untouched d d' r) ∧
      ∀ r x, d.c.recs r = none → d'.c.recs r = some x → x.rr.name = host ∧ x.rr.type = 28 := by
  obtain ⟨u, h'⟩ := setIpv6Addresses_upd h e
  refine ⟨fun r x hx hc => untouched_of h h' (u.keep r x hx ?_), fun r x h1 h2 => ⟨(u.new r x h1 h2).1.2, (u.new r x h1 h2).1.1⟩⟩
  rintro ⟨ho, hm⟩
  rcases hc with hc | hc | hc
  · exact hc ho.2
  · exact hc ho.1
  · exact hm (List.mem_map.mpr ⟨_, hc, (addrOf6.mpr rfl).symm⟩)

theorem Updated.twice {host : Bytes} {type : Nat} {want : List Ip} {c c' c'' : Core} {l l' m m' : Lists}
    (h : Updated host type want c l c' l') (h' : Updated host type want c' m c'' m') : c''.recs = c'.recs := by
  funext r
  cases hr : c'.recs r with
  | none =>
    cases hr' : c''.recs r with
    | none => rfl
    | some x =>
      exfalso
      obtain ⟨_, _, hw, hd⟩ := h'.new r x hr hr'
      obtain ⟨s, y, hy, ho, ha⟩ := h.all _ hw
      exact hd s y hy ho ha
  | some x =>
    rcases h.back hr with hb | hb | ⟨ho, ht, ha, y, hy, hp, rfl⟩
    · rw [← hr]
      exact congrArg View.x (h'.keep r x hr fun hh => hh.2 hb.2.2.2)
    · rw [← hr]
      exact congrArg View.x (h'.keep r x hr hb.2)
    · have hp' : ¬ ({ y with rr := { y.rr with ttl := 0 } } : Rec).Probing := hp
      exact (h'.drop r _ hr ho ha).2 hp'

/-- C38, doing it again: the second of two calls in a row with the same addresses changes no
record, adds none and removes none. -/
theorem C38_idempotent {env : Env} {d d' d'' : D Ptrs} (h : Reach env d) {host : Bytes} {o o' : OpOut} :
    (∀ a, Mdns.step env (.setAddresses host a) d = .ok (o, d') → Mdns.step env (.setAddresses host a) d' = .ok (o', d'') →
      d''.c.recs = d'.c.recs) ∧
    ∀ a, Mdns.step env (.setIpv6Addresses host a) d = .ok (o, d') →
      Mdns.step env (.setIpv6Addresses host a) d' = .ok (o', d'') → d''.c.recs = d'.c.recs := by
  refine ⟨fun a e e' => ?_, fun a e e' => ?_⟩
  · obtain ⟨u, h'⟩ := setAddresses_upd h e
    exact u.twice (setAddresses_upd h' e').1
  · obtain ⟨u, h'⟩ := setIpv6Addresses_upd h e
    exact u.twice (setIpv6Addresses_upd h' e').1

/-! ### mdnsd_set_interface_addresses -/

theorem IfA.other {v4 : List Ip4} {v6 : List Ip6} {hosts : List Bytes} {c c' : Core} {l l' : Lists}
    (n : IfA v4 v6 hosts c l c' l') {r : Nat} {x : Rec} (hx : ∀ h ∈ hosts, ¬ x.Of h 1 ∧ ¬ x.Of h 28) :
    c'.recs r = some x ↔ c.recs r = some x := by
  induction n with
  | nil h => exact Iff.rfl
  | @cons host hosts c c1 c2 c' l l1 l2 l' a b n ih =>
    have := hx host (List.mem_cons_self ..)
    rw [ih fun h m => hx h (List.mem_cons_of_mem _ m), (b.updated (fits6 v6)).other this.2, (a.updated (fits4 v4)).other this.1]

theorem has_congr {c c' : Core} {host : Bytes} {type : Nat} {ip : Ip}
    (h : ∀ r x, x.Of host type → (c'.recs r = some x ↔ c.recs r = some x)) : c'.Has host type ip ↔ c.Has host type ip := by
  constructor
  · rintro ⟨r, x, h1, h2, h3⟩
    exact ⟨r, x, (h r x h2).mp h1, h2, h3⟩
  · rintro ⟨r, x, h1, h2, h3⟩
    exact ⟨r, x, (h r x h2).mpr h1, h2, h3⟩

theorem leaving_congr {c c' : Core} {host : Bytes} {type : Nat} {want : List Ip}
    (h : ∀ r x, x.Of host type → (c'.recs r = some x ↔ c.recs r = some x)) (hn : c.NoneLeaving host type want) :
    c'.NoneLeaving host type want := fun r x h1 h2 => hn r x ((h r x h2).mp h1) h2

theorem IfA.exact {v4 : List Ip4} {v6 : List Ip6} {hosts : List Bytes} {c c' : Core} {l l' : Lists}
    (n : IfA v4 v6 hosts c l c' l') {host : Bytes} (hm : host ∈ hosts) (h4 : c.NoneLeaving host 1 (v4.map Ip.v4))
    (h6 : c.NoneLeaving host 28 (v6.map Ip.v6)) :
    (∀ ip, c'.Has host 1 ip ↔ ip ∈ v4.map Ip.v4) ∧ ∀ ip, c'.Has host 28 ip ↔ ip ∈ v6.map Ip.v6 := by
  induction n with
  | nil h => cases hm
  | @cons host' hosts c c1 c2 c' l l1 l2 l' a b n ih =>
    have ua := a.updated (fits4 v4)
    have ub := b.updated (fits6 v6)
    have na : ∀ t, (host, t) ≠ (host', 1) → ∀ r x, x.Of host t → (c1.recs r = some x ↔ c.recs r = some x) :=
      fun t ht r x ho => ua.other fun ho' => ht (by rw [← ho.1, ← ho'.1, ← ho.2, ← ho'.2])
    have nb : ∀ t, (host, t) ≠ (host', 28) → ∀ r x, x.Of host t → (c2.recs r = some x ↔ c1.recs r = some x) :=
      fun t ht r x ho => ub.other fun ho' => ht (by rw [← ho.1, ← ho'.1, ← ho.2, ← ho'.2])
    have c4 : c1.NoneLeaving host 1 (v4.map Ip.v4) := by
      by_cases e : host = host'
      · subst e; exact ua.none_leaving h4
      · exact leaving_congr (na 1 (by simp [e])) h4
    have c6 : c1.NoneLeaving host 28 (v6.map Ip.v6) := leaving_congr (na 28 (by simp)) h6
    have d4 : c2.NoneLeaving host 1 (v4.map Ip.v4) := leaving_congr (nb 1 (by simp)) c4
    have d6 : c2.NoneLeaving host 28 (v6.map Ip.v6) := by
      by_cases e : host = host'
      · subst e; exact ub.none_leaving c6
      · exact leaving_congr (nb 28 (by simp [e])) c6
    by_cases hh : host ∈ hosts
    · exact ih hh d4 d6
    · have e : host = host' := by simpa [hh] using hm
      subst e
      have no : ∀ t r x, x.Of host t → (c'.recs r = some x ↔ c2.recs r = some x) := fun t r x ho =>
        n.other fun h m => ⟨fun ho' => hh (by rw [← ho.2, ho'.2]; exact m), fun ho' => hh (by rw [← ho.2, ho'.2]; exact m)⟩
      refine ⟨fun ip => ?_, fun ip => ?_⟩
      · rw [has_congr (no 1), has_congr (nb 1 (by simp)), ua.exact h4]
      · rw [has_congr (no 28), ub.exact c6]

theorem mem_hostsOf {c : Core} : ∀ (rs : List Nat) (acc : List Bytes) (host : Bytes),
    host ∈ c.hostsOf rs acc ↔ host ∈ acc ∨ ∃ r ∈ rs, ∃ x, c.recs r = some x ∧ (x.rr.type = 1 ∨ x.rr.type = 28) ∧ x.rr.name = host
  | [], acc, host => by simp [Core.hostsOf]
  | r :: rs, acc, host => by
    unfold Core.hostsOf
    split
    · rename_i hr
      rw [mem_hostsOf rs acc host]
      simp [hr]
    · rename_i x hr
      split
      · rename_i hc
        rw [mem_hostsOf rs _ host]
        simp only [List.mem_append, List.mem_cons, List.not_mem_nil, or_false, exists_eq_or_imp, hr, Option.some.injEq,
          exists_eq_left', hc.1, true_and]
        constructor
        · rintro ((h | h) | h)
          · exact .inl h
          · exact .inr (.inl h.symm)
          · exact .inr (.inr h)
        · rintro (h | h | h)
          · exact .inl (.inl h)
          · exact .inl (.inr h.symm)
          · exact .inr h
      · rename_i hc
        rw [mem_hostsOf rs _ host]
        simp only [List.mem_cons, exists_eq_or_imp, hr, Option.some.injEq, exists_eq_left']
        constructor
        · rintro (h | h)
          · exact .inl h
          · exact .inr (.inr h)
        · rintro (h | ⟨h1, h2⟩ | h)
          · exact .inl h
          · by_cases hm : x.rr.name ∈ acc
            · exact .inl (h2 ▸ hm)
            · exact absurd ⟨h1, hm⟩ hc
          · exact .inr h

/-- C38 for `mdnsd_set_interface_addresses`: every host that has an address record gets exactly
the addresses of the interface; all records of other types, and of hosts without address
records, are untouched.  Missing: as above, addresses whose records are being withdrawn. -/
theorem C38_interface_partial {env : Env} {d d' : D Ptrs} (h : Reach env d) {v4 : List Ip4} {v6 : List Ip6} {o : OpOut}
    (e : Mdns.step env (.setInterface v4 v6) d = .ok (o, d')) :
    (∀ host, (∃ r x, d.c.recs r = some x ∧ (x.rr.type = 1 ∨ x.rr.type = 28) ∧ x.rr.name = host) →
      NoneLeaving4 d host v4 → NoneLeaving6 d host v6 →
      (∀ ip, HasV4 d' host ip ↔ ip ∈ v4) ∧ ∀ ip, HasV6 d' host ip ↔ ip ∈ v6) ∧
    ∀ r x, x.rr.type ≠ 1 → x.rr.type ≠ 28 → (d'.c.recs r = some x ↔ d.c.recs r = some x) := by
  have hd := h.did (o := .setInterface v4 v6) trivial e
  have key : IfA v4 v6 (d.c.hostsOf d.c.allPublished []) d.c d.lists d'.c d'.lists := by
    generalize d'.c = c', d'.lists = l' at hd
    cases hd with
    | setInterface n => exact n
  refine ⟨fun host hh h4 h6 => ?_, fun r x h1 h2 => key.other fun h _ => ⟨fun ho => h1 ho.1, fun ho => h2 ho.1⟩⟩
  obtain ⟨r, x, hx, ht, hn⟩ := hh
  have hm : host ∈ d.c.hostsOf d.c.allPublished [] :=
    (mem_hostsOf _ _ _).mpr (.inr ⟨r, h.inv.rinv.mem_all hx, x, hx, ht, hn⟩)
  obtain ⟨e4, e6⟩ := key.exact hm h4.core h6.core
  refine ⟨fun ip => ?_, fun ip => ?_⟩
  · rw [has4, e4]
    simp
  · rw [has6, e6]
    simp

/-! ### The hypotheses can be met -/

namespace Sample

/-- All records satisfy the test. -/
def allB (d : D Ptrs) (p : Rec → Bool) : Bool :=
  (List.range d.lists.size).all fun r => (d.c.recs r).all p

theorem all_of {env : Env} {d : D Ptrs} {p : Rec → Bool} (h : Reach env d) (hb : allB d p = true) {r : Nat} {x : Rec}
    (hx : d.c.recs r = some x) : p x = true := by
  unfold allB at hb
  rw [List.all_eq_true] at hb
  have := hb r (List.mem_range.mpr (h.inv.rinv.bound r (by rw [hx]; rfl)))
  rw [hx] at this
  exact this

theorem noneLeaving4_of {env : Env} {d : D Ptrs} {host : Bytes} {a : List Ip4} (h : Reach env d)
    (hb : allB d (fun x => x.rr.name != host || x.rr.type != 1 || x.rr.ttl != 0 || !a.contains x.rr.ip) = true) :
    NoneLeaving4 d host a := by
  intro r x hx h1 h2 h3 m
  have := all_of h hb hx
  simp [h1, h2, h3, m] at this

theorem noneLeaving6_of {env : Env} {d : D Ptrs} {host : Bytes} {a : List Ip6} (h : Reach env d)
    (hb : allB d (fun x => x.rr.name != host || x.rr.type != 28 || x.rr.ttl != 0 || !a.contains x.rr.ip6) = true) :
    NoneLeaving6 d host a := by
  intro r x hx h1 h2 h3 m
  have := all_of h hb hx
  simp [h1, h2, h3, m] at this

def ipB : Ip4 := #v[10, 0, 0, 2]
def ipC : Ip4 := #v[10, 0, 0, 3]

def ipX : Ip6 := #v[1, 2, 3, 4, 5, 6, 7, 8, 9, 10, 11, 12, 13, 14, 15, 16]
def ipY : Ip6 := #v[1, 2, 3, 4, 5, 6, 7, 8, 9, 10, 11, 12, 13, 14, 15, 17]

/-- A host with two addresses of each family, and another record. -/
def homed : List Op := [.setAddresses (nm 97) [ipA, ipB], .setIpv6Addresses (nm 97) [ipX], .shared (nm 98) 12 120] ++
  every 101 4

def rehomed : List Op := [.setAddresses (nm 97) [ipB, ipC]]

/-- C38: one address stays, one is added and one is withdrawn. -/
example : Reach quiet (trace quiet homed fresh).2 ∧ NoneLeaving4 (trace quiet homed fresh).2 (nm 97) [ipB, ipC] ∧
    (∃ a, Mdns.step quiet (.setAddresses (nm 97) [ipB, ipC]) (trace quiet homed fresh).2 =
      .ok (a, (trace quiet rehomed (trace quiet homed fresh).2).2)) ∧
    ((trace quiet homed fresh).2.c.recs 0).any (fun x => x.rr.ip = ipA ∧ x.rr.ttl = 120) ∧
    ((trace quiet rehomed (trace quiet homed fresh).2).2.c.recs 0).any (fun x => x.rr.ip = ipA ∧ x.rr.ttl = 0) ∧
    ((trace quiet rehomed (trace quiet homed fresh).2).2.c.recs 4).any (fun x => x.rr.ip = ipC ∧ x.rr.ttl = 120) := by
  have hr := (hist_of (ops := homed) (by decide +kernel)).reach
  exact ⟨hr, noneLeaving4_of hr (by decide +kernel), step_of hr trivial, by decide +kernel, by decide +kernel,
    by decide +kernel⟩

/-- C38, IPv6 and the interface. -/
example : Reach quiet (trace quiet homed fresh).2 ∧ NoneLeaving6 (trace quiet homed fresh).2 (nm 97) [ipY] ∧
    NoneLeaving4 (trace quiet homed fresh).2 (nm 97) [ipC] ∧
    (∃ a d', Mdns.step quiet (.setIpv6Addresses (nm 97) [ipY]) (trace quiet homed fresh).2 = .ok (a, d')) ∧
    (∃ a d', Mdns.step quiet (.setInterface [ipC] [ipY]) (trace quiet homed fresh).2 = .ok (a, d')) := by
  have hr := (hist_of (ops := homed) (by decide +kernel)).reach
  refine ⟨hr, noneLeaving6_of hr (by decide +kernel), noneLeaving4_of hr (by decide +kernel), ?_, ?_⟩
  · obtain ⟨a, e⟩ := step_of (o := .setIpv6Addresses (nm 97) [ipY]) hr trivial
    exact ⟨a, _, e⟩
  · obtain ⟨a, e⟩ := step_of (o := .setInterface [ipC] [ipY]) hr trivial
    exact ⟨a, _, e⟩

end Sample

/-! ### Counterexample -/

open Sample in
/-- C38: an address that is being withdrawn when it is set again is not kept: the record on its way
out counts as the record of this address (`libmdnsd/mdnsd.c:1760-1781`), and goes away. -/
theorem C38_withdrawn_counterexample : ∃ d d' a, Reach quiet d ∧
    Mdns.step quiet (.setAddresses (nm 97) [ipA]) d = .ok (a, d') ∧ ¬ HasV4 d' (nm 97) ipA := by
  have hr := (hist_of (ops := announced ++ [.setAddresses (nm 97) []]) (by decide +kernel)).reach
  obtain ⟨a, e⟩ := step_of (o := .setAddresses (nm 97) [ipA]) hr trivial
  refine ⟨_, _, a, hr, e, ?_⟩
  rintro ⟨r, x, hx, _, _, ht, _⟩
  have := all_of (hr.step (o := .setAddresses (nm 97) [ipA]) trivial e) (p := fun x => x.rr.ttl == 0) (by decide +kernel) hx
  simp [ht] at this

end Mdns
