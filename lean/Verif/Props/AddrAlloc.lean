import Verif.Model.AddrAlloc
import Verif.Props.LoadAlloc

/-!
# C116: updating addresses when memory runs out
-/

namespace Mdns

open M

/-! ### The adding loop -/

theorem hasAddrQ_ok {Q : Type} [QOps Q] {c : Core} {q : Q} {host : Bytes} {type : Nat} {want : Ip} : ∀ (rs : List Nat),
    (∀ r ∈ rs, ∃ x, c.recs r = some x) →
    hasAddr host type want rs ⟨c, q⟩ = .ok (rs.any (c.isAddr host type want), ⟨c, q⟩)
  | [], _ => rfl
  | r :: rs, h => by
    obtain ⟨x, hx⟩ := h r (by simp)
    have hi : c.isAddr host type want r = decide (x.rr.type = type ∧ x.rr.name = host ∧ x.rr.addrOf type = want) := by
      simp only [Core.isAddr, hx]
    unfold hasAddr
    rw [M.bind_ok (getRec_ok hx), List.any_cons, hi]
    split
    · rename_i hh
      simp only [hh, and_self, decide_true, Bool.true_or]
      rfl
    · rename_i hh
      rw [hasAddrQ_ok rs fun r' m => h r' (by simp [m])]
      simp only [hh, decide_false, Bool.false_or]

theorem setAddr_call {env : Env} {d : D Ptrs} (h : Reach env d) {r : Nat} {x : Rec} (hx : d.c.recs r = some x) (a : Ip) :
    ∃ d' hs, setAddr r a d = .ok ((), d') ∧ Calls env d hs d' ∧ Conf.Puts d d' r (x.withAddr a).rr := by
  cases a with
  | v4 a =>
    obtain ⟨_, d', e, cs, hd⟩ := h.call (o := .setIp r a) (x := setIp r a) (f := fun _ => .unit) (by simp [OpSafe, hx]) rfl
    refine ⟨d', _, e, cs, ?_⟩
    clear e cs
    generalize hc : d'.c = c', d'.lists = l' at hd
    generalize ho : OpOut.unit = out at hd
    cases hd with
    | setIp hx' =>
      rw [hx] at hx'
      cases hx'
      have := setSt_rr d.c d.lists r { x with rr := { x.rr with ip := a } }
      exact ⟨by rw [hc]; exact this.1, by rw [hc]; exact this.2⟩
  | v6 a =>
    obtain ⟨_, d', e, cs, hd⟩ := h.call (o := .setIpv6 r a) (x := setIpv6 r a) (f := fun _ => .unit) (by simp [OpSafe, hx]) rfl
    refine ⟨d', _, e, cs, ?_⟩
    clear e cs
    generalize hc : d'.c = c', d'.lists = l' at hd
    generalize ho : OpOut.unit = out at hd
    cases hd with
    | setIpv6 hx' =>
      rw [hx] at hx'
      cases hx'
      have := setSt_rr d.c d.lists r { x with rr := { x.rr with ip6 := a } }
      exact ⟨by rw [hc]; exact this.1, by rw [hc]; exact this.2⟩

/-- A new record with an address. -/
theorem newAddr_call {env : Env} {d : D Ptrs} (h : Reach env d) {host : Bytes} {type : Nat} (ttl : Nat) {want : Ip} (hw : want.fits type) :
    ∃ r d1 d2, shared host type ttl d = .ok (r, d1) ∧ setAddr r want d1 = .ok ((), d2) ∧ Reach env d2 ∧ d.c.recs r = none ∧
      (∃ y, d2.c.recs r = some y ∧ y.Of host type ∧ y.rr.addrOf type = want) ∧ ∀ s, s ≠ r → d2.c.recs s = d.c.recs s := by
  obtain ⟨r, d1, hs, e, cs, _, hn, p, _⟩ := Conf.make_call h true 0 host type ttl
  have h1 := cs.reach h
  obtain ⟨x, hx, hr⟩ := p.here
  obtain ⟨d2, hs2, e2, cs2, p2⟩ := setAddr_call h1 hx want
  refine ⟨r, d1, d2, e, e2, cs2.reach h1, hn, ?_, fun s hs => (p2.others s hs).trans (p.others s hs)⟩
  obtain ⟨y, hy, hr2⟩ := p2.here
  refine ⟨y, hy, ⟨?_, ?_⟩, ?_⟩
  · rw [hr2]
    cases want <;> (show x.rr.type = type; rw [hr])
  · rw [hr2]
    cases want <;> (show x.rr.name = host; rw [hr])
  · rw [hr2]
    exact addrOf_withAddr hw

/-- The addresses of the loop that count: those with memory, and those that are there. -/
def kept (p : Ip → Bool) (l : List (Ip × Bool)) : List Ip := (l.filter fun w => w.2 || p w.1).map (·.1)

/-- The loop with refused records is the loop for the addresses that count. -/
theorem addF_same {env : Env} {host : Bytes} {type ttl : Nat} {p : Ip → Bool} : ∀ (l : List (Ip × Bool)) {d : D Ptrs}, Reach env d →
    (∀ w ∈ l, w.1.fits type) → (∀ ip, p ip = true → ∃ r x, d.c.recs r = some x ∧ x.Of host type ∧ x.rr.addrOf type = ip) →
    addAddrsF host type ttl l d = addAddrs host type ttl (kept p l) d ∧
    ∃ d', addAddrsF host type ttl l d = .ok ((), d') ∧ Reach env d' ∧
      ∀ r x, d'.c.recs r = some x → d.c.recs r = some x ∨ (x.Of host type ∧ (x.rr.addrOf type, true) ∈ l)
  | [], d, h, _, _ => ⟨rfl, d, rfl, h, fun _ _ hx => .inl hx⟩
  | (want, mem) :: l, d, h, hf, hp => by
    have hfl : ∀ w ∈ l, w.1.fits type := fun w m => hf w (List.mem_cons_of_mem _ m)
    have eh := hasAddrQ_ok (c := d.c) (q := d.q) (host := host) (type := type) (want := want) _ (h.inv.rinv.pubrec (bucket host sprime))
    have ha : addAddrsF host type ttl ((want, mem) :: l) d =
        (if (d.c.published (bucket host sprime)).any (d.c.isAddr host type want) = true then addAddrsF host type ttl l
         else if mem = true then (shared host type ttl >>= fun r => setAddr r want >>= fun _ => addAddrsF host type ttl l)
         else addAddrsF host type ttl l : M Ptrs Unit) d := by
      conv => lhs; unfold addAddrsF
      rw [M.bind_ok core_ok, M.bind_ok eh]
    have hb : ∀ rest, addAddrs host type ttl (want :: rest) d =
        (if (d.c.published (bucket host sprime)).any (d.c.isAddr host type want) = true then addAddrs host type ttl rest
         else (shared host type ttl >>= fun r => setAddr r want >>= fun _ => addAddrs host type ttl rest) : M Ptrs Unit) d := by
      intro rest
      conv => lhs; unfold addAddrs
      rw [M.bind_ok core_ok, M.bind_ok eh]
    have up : ∀ {r : Nat} {x : Rec}, (x.Of host type ∧ (x.rr.addrOf type, true) ∈ l) → x.Of host type ∧ (x.rr.addrOf type, true) ∈ (want, mem) :: l :=
      fun {_ _} k => ⟨k.1, List.mem_cons_of_mem _ k.2⟩
    by_cases hfound : (d.c.published (bucket host sprime)).any (d.c.isAddr host type want) = true
    · obtain ⟨ih, d', e, hr, back⟩ := addF_same (ttl := ttl) l h hfl hp
      rw [ha, if_pos hfound]
      refine ⟨?_, d', e, hr, fun r x hx => (back r x hx).imp id (up (r := r))⟩
      by_cases hk : (mem || p want) = true
      · have : kept p ((want, mem) :: l) = want :: kept p l := by
          unfold kept
          rw [List.filter_cons_of_pos (by exact hk)]
          rfl
        rw [this, hb, if_pos hfound, ih]
      · have : kept p ((want, mem) :: l) = kept p l := by
          unfold kept
          rw [List.filter_cons_of_neg (by exact hk)]
        rw [this, ih]
    · have hpw : p want = false := by
        cases hpw : p want with
        | false => rfl
        | true =>
          obtain ⟨r, x, hx, ho, hr⟩ := hp want hpw
          refine absurd (List.any_eq_true.mpr ⟨r, ?_, isAddr_iff.mpr ⟨x, hx, ho, hr⟩⟩) hfound
          have := h.inv.rinv.mem r x hx
          rwa [ho.2] at this
      rw [ha, if_neg hfound]
      cases mem with
      | false =>
        obtain ⟨ih, d', e, hr, back⟩ := addF_same (ttl := ttl) l h hfl hp
        have : kept p ((want, false) :: l) = kept p l := by
          unfold kept
          rw [List.filter_cons_of_neg (by simp [hpw])]
        rw [this]
        exact ⟨ih, d', e, hr, fun r x hx => (back r x hx).imp id (up (r := r))⟩
      | true =>
        obtain ⟨r, d1, d2, e1, e2, h2, hn, ⟨y, hy, yo, ya⟩, others⟩ := newAddr_call h (host := host) ttl (hf (want, true) List.mem_cons_self)
        have hp2 : ∀ ip, p ip = true → ∃ r x, d2.c.recs r = some x ∧ x.Of host type ∧ x.rr.addrOf type = ip := by
          intro ip hip
          obtain ⟨s, x, hx, ho, hr⟩ := hp ip hip
          refine ⟨s, x, ?_, ho, hr⟩
          rw [others s fun e => by rw [e, hn] at hx; cases hx]
          exact hx
        obtain ⟨ih, d', e, hr, back⟩ := addF_same (ttl := ttl) l h2 hfl hp2
        have : kept p ((want, true) :: l) = want :: kept p l := by
          unfold kept
          rw [List.filter_cons_of_pos (by rfl)]
          rfl
        rw [this, hb, if_neg hfound, if_pos rfl, M.bind_ok e1, M.bind_ok e2, M.bind_ok e1, M.bind_ok e2]
        refine ⟨ih, d', e, hr, fun s x hx => ?_⟩
        rcases back s x hx with k | k
        · by_cases es : s = r
          · subst es
            rw [hy] at k
            cases k
            exact .inr ⟨yo, by rw [ya]; exact List.mem_cons_self⟩
          · rw [others s es] at k
            exact .inl k
        · exact .inr (up (r := s) k)

/-! ### The removing loop -/

/-- It depends on the addresses that records have only. -/
theorem drop_same {env : Env} {host : Bytes} {type : Nat} {w1 w2 : List Ip} : ∀ (fuel : Nat) (cur : Option Nat) {d : D Ptrs}, Reach env d →
    (∀ r x, d.c.recs r = some x → x.Of host type → (x.rr.addrOf type ∈ w1 ↔ x.rr.addrOf type ∈ w2)) →
    dropAddrs host type w1 fuel cur d = dropAddrs host type w2 fuel cur d
  | 0, none, _, _, _ => by unfold dropAddrs; rfl
  | _ + 1, none, _, _, _ => by unfold dropAddrs; rfl
  | 0, some _, _, _, _ => by unfold dropAddrs; rfl
  | fuel + 1, some cur, d, h, ag => by
    unfold dropAddrs
    cases hx : d.c.recs cur with
    | none =>
      have eu : (rBehind cur : M Ptrs (List Nat)) d = .ub := by
        unfold rBehind
        refine M.bind_ub ?_
        unfold getRec
        simp only [hx]
      rw [M.bind_ub eu, M.bind_ub eu]
    | some x =>
      have eb : rBehind cur d = .ok (behind cur (d.c.published (bucket x.rr.name sprime)), d) := by
        unfold rBehind
        rw [M.bind_ok (getRec_ok hx), M.bind_ok core_ok]
        rfl
      rw [M.bind_ok eb, M.bind_ok eb, M.bind_ok (getRec_ok hx), M.bind_ok (getRec_ok hx)]
      by_cases hc : x.rr.type = type ∧ x.rr.name = host ∧ x.rr.addrOf type ∉ w1
      · have hc2 : x.rr.type = type ∧ x.rr.name = host ∧ x.rr.addrOf type ∉ w2 :=
          ⟨hc.1, hc.2.1, fun m => hc.2.2 ((ag cur x hx ⟨hc.1, hc.2.1⟩).mpr m)⟩
        rw [if_pos hc, if_pos hc2]
        obtain ⟨_, d', e, cs, hd⟩ := h.call (o := .done cur) (x := done cur) (f := fun _ => .unit) (by simp [OpSafe, hx]) rfl
        have e : done cur d = .ok ((), d') := e
        show (done cur >>= fun _ => _) d = (done cur >>= fun _ => _) d
        rw [M.bind_ok e, M.bind_ok e]
        refine drop_same fuel _ (cs.reach h) ?_
        clear e cs
        generalize hcc : d'.c = c', d'.lists = l' at hd
        generalize ho : OpOut.unit = out at hd
        intro r y hy yo
        cases hd with
        | @done _ x' _ _ hx' =>
          rw [hx] at hx'
          cases hx'
          obtain ⟨lv, others⟩ := doneSt_recs h.inv.rinv hx
          by_cases er : r = cur
          · subst er
            by_cases hp : x.Probing
            · rw [lv.1 hp] at hy
              cases hy
            · rw [lv.2 hp] at hy
              cases hy
              exact ag r x hx yo
          · have : (doneSt d.c d.lists cur x).c.recs r = d.c.recs r := congrArg View.x (others r er)
            rw [this] at hy
            exact ag r y hy yo
      · have hc2 : ¬ (x.rr.type = type ∧ x.rr.name = host ∧ x.rr.addrOf type ∉ w2) :=
          fun k => hc ⟨k.1, k.2.1, fun m => k.2.2 ((ag cur x hx ⟨k.1, k.2.1⟩).mp m)⟩
        rw [if_neg hc, if_neg hc2]
        exact drop_same fuel _ h ag

/-! ### One host -/

/-- There is a record with this address. -/
def D.haveAddr (d : D Ptrs) (host : Bytes) (type : Nat) (ip : Ip) : Bool :=
  (d.c.published (bucket host sprime)).any (d.c.isAddr host type ip)

theorem haveAddr_iff {env : Env} {d : D Ptrs} (h : Reach env d) {host : Bytes} {type : Nat} {ip : Ip} :
    d.haveAddr host type ip = true ↔ ∃ r x, d.c.recs r = some x ∧ x.Of host type ∧ x.rr.addrOf type = ip := by
  unfold D.haveAddr
  rw [List.any_eq_true]
  constructor
  · rintro ⟨r, _, hr⟩
    obtain ⟨x, hx, ho, ha⟩ := isAddr_iff.mp hr
    exact ⟨r, x, hx, ho, ha⟩
  · rintro ⟨r, x, hx, ho, ha⟩
    refine ⟨r, ?_, isAddr_iff.mpr ⟨x, hx, ho, ha⟩⟩
    have := h.inv.rinv.mem r x hx
    rwa [ho.2] at this

theorem updateF_same {env : Env} {d : D Ptrs} (h : Reach env d) {host : Bytes} {type : Nat} {l : List (Ip × Bool)}
    (hf : ∀ w ∈ l, w.1.fits type) : updateAddrsF host type l d = updateAddrs host type (kept (d.haveAddr host type) l) d := by
  have ef : find host type d =
      .ok (((d.c.published (bucket host sprime)).filter (d.c.isNamed host type)).head?, d) := by
    unfold find
    rw [M.bind_ok core_ok]
    exact find_go_ok _ (h.inv.rinv.pubrec _)
  unfold updateAddrsF updateAddrs
  rw [M.bind_ok ef, M.bind_ok ef]
  have main : ∀ ttl : Nat, (addAddrsF host type ttl l >>= fun _ => core >>= fun c =>
        dropAddrs host type (l.map (·.1)) (c.published (bucket host sprime)).length (c.published (bucket host sprime)).head? : M Ptrs Unit) d =
      (addAddrs host type ttl (kept (d.haveAddr host type) l) >>= fun _ => core >>= fun c =>
        dropAddrs host type (kept (d.haveAddr host type) l) (c.published (bucket host sprime)).length
          (c.published (bucket host sprime)).head? : M Ptrs Unit) d := by
    intro ttl
    obtain ⟨e, d', e', h', back⟩ := addF_same (ttl := ttl) l h hf fun ip hip => (haveAddr_iff h).mp hip
    rw [M.bind_ok e', M.bind_ok (x := addAddrs host type ttl _) (e ▸ e')]
    show dropAddrs host type _ _ _ d' = dropAddrs host type _ _ _ d'
    refine drop_same _ _ h' fun r x hx ho => ?_
    unfold kept
    constructor
    · intro m
      obtain ⟨w, mw, ew⟩ := List.mem_map.mp m
      rcases back r x hx with k | k
      · refine List.mem_map.mpr ⟨w, List.mem_filter.mpr ⟨mw, ?_⟩, ew⟩
        rw [ew, (haveAddr_iff h).mpr ⟨r, x, k, ho, rfl⟩, Bool.or_true]
      · exact List.mem_map.mpr ⟨_, List.mem_filter.mpr ⟨k.2, rfl⟩, rfl⟩
    · intro m
      obtain ⟨w, mw, ew⟩ := List.mem_map.mp m
      exact List.mem_map.mpr ⟨w, (List.mem_filter.mp mw).1, ew⟩
  cases hh : ((d.c.published (bucket host sprime)).filter (d.c.isNamed host type)).head? with
  | none => exact main 120
  | some r =>
    obtain ⟨x, hx, _⟩ := Conf.isNamed_iff.mp (List.mem_filter.mp (List.mem_of_head? hh)).2
    show (getRec r >>= fun _ => _) d = (getRec r >>= fun _ => _) d
    rw [M.bind_ok (getRec_ok hx), M.bind_ok (getRec_ok hx)]
    exact main _

theorem kept_map {α : Type} (f : α → Ip) (p : Ip → Bool) (a : List (α × Bool)) :
    kept p (a.map fun w => (f w.1, w.2)) = ((a.filter fun w => w.2 || p (f w.1)).map (·.1)).map f := by
  unfold kept
  induction a with
  | nil => rfl
  | cons w a ih =>
    by_cases h : (w.2 || p (f w.1)) = true
    · simp only [List.map_cons, List.filter_cons, h, if_true, ih]
    · have h : (w.2 || p (f w.1)) = false := by simpa using h
      simp only [List.map_cons, List.filter_cons, h, Bool.false_eq_true, if_false, ih]

theorem mem_kept {p : Ip → Bool} {l : List (Ip × Bool)} {ip : Ip} :
    ip ∈ kept p l ↔ (ip, true) ∈ l ∨ (ip ∈ l.map (·.1) ∧ p ip = true) := by
  unfold kept
  constructor
  · intro m
    obtain ⟨⟨w, b⟩, mw, rfl⟩ := List.mem_map.mp m
    obtain ⟨m1, m2⟩ := List.mem_filter.mp mw
    cases b with
    | true => exact .inl m1
    | false => exact .inr ⟨List.mem_map.mpr ⟨_, m1, rfl⟩, by simpa using m2⟩
  · rintro (m | ⟨m, hp⟩)
    · exact List.mem_map.mpr ⟨_, List.mem_filter.mpr ⟨m, rfl⟩, rfl⟩
    · obtain ⟨w, mw, rfl⟩ := List.mem_map.mp m
      exact List.mem_map.mpr ⟨w, List.mem_filter.mpr ⟨mw, by rw [hp, Bool.or_true]⟩, rfl⟩

/-- One update as a call with enough memory. -/
theorem setAddressesF_call {env : Env} {d : D Ptrs} (h : Reach env d) (host : Bytes) (a : List (Ip4 × Bool)) :
    ∃ d', setAddressesForHostF host a d = .ok ((), d') ∧ Reach env d' ∧
      Updated host 1 (kept (d.haveAddr host 1) (a.map fun w => (.v4 w.1, w.2))) d.c d.lists d'.c d'.lists := by
  have e0 := updateF_same h (host := host) (type := 1) (l := a.map fun w => (.v4 w.1, w.2)) (by
    intro w m
    obtain ⟨_, _, rfl⟩ := List.mem_map.mp m
    rfl)
  rw [kept_map] at e0 ⊢
  obtain ⟨_, d', e, _, _⟩ := h.call (o := .setAddresses host ((a.filter fun w => w.2 || d.haveAddr host 1 (.v4 w.1)).map (·.1)))
    (x := setAddressesForHost host _) (f := fun _ => .unit) trivial rfl
  have es : Mdns.step env (.setAddresses host ((a.filter fun w => w.2 || d.haveAddr host 1 (.v4 w.1)).map (·.1))) d = .ok (.unit, d') := by
    show (setAddressesForHost host _ >>= fun _ => pure OpOut.unit) d = _
    rw [M.bind_ok e]
    rfl
  obtain ⟨u, h'⟩ := setAddresses_upd h es
  exact ⟨d', e0.trans e, h', u⟩

theorem setIpv6AddressesF_call {env : Env} {d : D Ptrs} (h : Reach env d) (host : Bytes) (a : List (Ip6 × Bool)) :
    ∃ d', setIpv6AddressesForHostF host a d = .ok ((), d') ∧ Reach env d' ∧
      Updated host 28 (kept (d.haveAddr host 28) (a.map fun w => (.v6 w.1, w.2))) d.c d.lists d'.c d'.lists := by
  have e0 := updateF_same h (host := host) (type := 28) (l := a.map fun w => (.v6 w.1, w.2)) (by
    intro w m
    obtain ⟨_, _, rfl⟩ := List.mem_map.mp m
    simp [Ip.fits])
  rw [kept_map] at e0 ⊢
  obtain ⟨_, d', e, _, _⟩ := h.call (o := .setIpv6Addresses host ((a.filter fun w => w.2 || d.haveAddr host 28 (.v6 w.1)).map (·.1)))
    (x := setIpv6AddressesForHost host _) (f := fun _ => .unit) trivial rfl
  have es : Mdns.step env (.setIpv6Addresses host ((a.filter fun w => w.2 || d.haveAddr host 28 (.v6 w.1)).map (·.1))) d = .ok (.unit, d') := by
    show (setIpv6AddressesForHost host _ >>= fun _ => pure OpOut.unit) d = _
    rw [M.bind_ok e]
    rfl
  obtain ⟨u, h'⟩ := setIpv6Addresses_upd h es
  exact ⟨d', e0.trans e, h', u⟩

/-- The addresses afterwards. -/
theorem kept_exact {env : Env} {d d' : D Ptrs} (h : Reach env d) {host : Bytes} {t : Nat} {l : List (Ip × Bool)}
    (u : Updated host t (kept (d.haveAddr host t) l) d.c d.lists d'.c d'.lists) (hn : d.c.NoneLeaving host t (l.map (·.1))) :
    (∀ ip, d'.c.Has host t ip ↔ (ip, true) ∈ l ∨ (ip ∈ l.map (·.1) ∧ d.c.Has host t ip)) ∧ d'.c.NoneLeaving host t (l.map (·.1)) := by
  have sub : ∀ ip, ip ∈ kept (d.haveAddr host t) l → ip ∈ l.map (·.1) := by
    intro ip m
    rcases mem_kept.mp m with m | m
    · exact List.mem_map.mpr ⟨_, m, rfl⟩
    · exact m.1
  have hn' : d.c.NoneLeaving host t (kept (d.haveAddr host t) l) := fun r x hx ho h0 m => hn r x hx ho h0 (sub _ m)
  refine ⟨fun ip => ?_, fun r x hx ho h0 m => ?_⟩
  · rw [u.exact hn', mem_kept]
    refine or_congr Iff.rfl (and_congr_right fun m => ?_)
    rw [haveAddr_iff h]
    constructor
    · rintro ⟨r, x, hx, ho, rfl⟩
      exact ⟨r, x, hx, ho, fun h0 => hn r x hx ho h0 m, rfl⟩
    · rintro ⟨r, x, hx, ho, _, ha⟩
      exact ⟨r, x, hx, ho, ha⟩
  · rcases u.back hx with k | k | ⟨_, _, na, y, hy, _, rfl⟩
    · exact k.2.2.1 h0
    · exact hn r x k.1 ho h0 m
    · exact na (mem_kept.mpr (.inr ⟨m, (haveAddr_iff h).mpr ⟨r, y, hy, ho, rfl⟩⟩))

/-! ### The interface -/

/-- A sequence of updates. -/
inductive Upds (env : Env) (L : Bytes → Nat → List (Ip × Bool)) : List (Bytes × Nat) → D Ptrs → D Ptrs → Prop
  | nil {d : D Ptrs} (h : Reach env d) : Upds env L [] d d
  | cons {host : Bytes} {t : Nat} {ps : List (Bytes × Nat)} {d d1 d' : D Ptrs} (h : Reach env d)
      (u : Updated host t (kept (d.haveAddr host t) (L host t)) d.c d.lists d1.c d1.lists) (n : Upds env L ps d1 d') :
      Upds env L ((host, t) :: ps) d d'

theorem Upds.reach {env : Env} {L : Bytes → Nat → List (Ip × Bool)} {ps : List (Bytes × Nat)} {d d' : D Ptrs} (n : Upds env L ps d d') :
    Reach env d' := by
  induction n with
  | nil h => exact h
  | cons _ _ _ ih => exact ih

theorem Upds.other {env : Env} {L : Bytes → Nat → List (Ip × Bool)} {ps : List (Bytes × Nat)} {d d' : D Ptrs} (n : Upds env L ps d d')
    {r : Nat} {x : Rec} (hx : ∀ q ∈ ps, ¬ x.Of q.1 q.2) : d'.c.recs r = some x ↔ d.c.recs r = some x := by
  induction n with
  | nil h => exact Iff.rfl
  | cons h u n ih => rw [ih fun q m => hx q (List.mem_cons_of_mem _ m), u.other (hx _ List.mem_cons_self)]

theorem Upds.exact {env : Env} {L : Bytes → Nat → List (Ip × Bool)} {ps : List (Bytes × Nat)} {d d' : D Ptrs} (n : Upds env L ps d d')
    {host : Bytes} {t : Nat} (hm : (host, t) ∈ ps) (hn : d.c.NoneLeaving host t ((L host t).map (·.1))) (ip : Ip) :
    d'.c.Has host t ip ↔ (ip, true) ∈ L host t ∨ (ip ∈ (L host t).map (·.1) ∧ d.c.Has host t ip) := by
  induction n with
  | nil h => cases hm
  | @cons host' t' ps d d1 d' h u n ih =>
    by_cases e : (host, t) = (host', t')
    · cases e
      obtain ⟨k1, k2⟩ := kept_exact h u hn
      by_cases hr : (host, t) ∈ ps
      · rw [ih hr k2, k1]
        constructor
        · rintro (m | ⟨m, m' | m'⟩)
          · exact .inl m
          · exact .inl m'
          · exact .inr m'
        · rintro (m | m)
          · exact .inl m
          · exact .inr ⟨m.1, .inr m⟩
      · rw [has_congr fun r x ho => n.other fun q m ho' => hr (by rw [← ho.1, ← ho.2, ho'.1, ho'.2]; exact m), k1]
    · have hr : (host, t) ∈ ps := by
        rcases List.mem_cons.mp hm with m | m
        · exact absurd m e
        · exact m
      have no : ∀ r x, x.Of host t → (d1.c.recs r = some x ↔ d.c.recs r = some x) := fun r x ho =>
        u.other fun ho' => e (by rw [← ho.1, ← ho.2, ho'.1, ho'.2])
      rw [ih hr (leaving_congr no hn), has_congr no]

/-- The addresses of both families. -/
def IfLuck.lists (k : IfLuck) (v4 : List Ip4) (v6 : List Ip6) (host : Bytes) (t : Nat) : List (Ip × Bool) :=
  if t = 1 then (lucky (k.v4 host) v4).map fun w => (.v4 w.1, w.2) else (lucky (k.v6 host) v6).map fun w => (.v6 w.1, w.2)

theorem mem_lucky {α : Type} {m : Nat → Bool} {a : List α} {x : α} : (x, true) ∈ lucky m a ↔ ∃ n : Nat, a[n]? = some x ∧ m n = true := by
  unfold lucky
  constructor
  · intro h
    obtain ⟨⟨y, n⟩, hy, e⟩ := List.mem_map.mp h
    injection e with e1 e2
    subst e1
    exact ⟨n, List.mem_zipIdx_iff_getElem?.mp hy, e2⟩
  · rintro ⟨n, h1, h2⟩
    exact List.mem_map.mpr ⟨(x, n), List.mem_zipIdx_iff_getElem?.mpr h1, by rw [h2]⟩

theorem lucky_fst {α : Type} {m : Nat → Bool} {a : List α} : (lucky m a).map (·.1) = a := by
  unfold lucky
  rw [List.map_map]
  exact List.zipIdx_map_fst 0 a

theorem goF_upds {env : Env} (k : IfLuck) (v4 : List Ip4) (v6 : List Ip6) : ∀ (hosts : List Bytes) {d : D Ptrs}, Reach env d →
    ∃ d', setInterfaceAddressesF.go k v4 v6 hosts d = .ok ((), d') ∧
      Upds env (k.lists v4 v6) (hosts.flatMap fun h => [(h, 1), (h, 28)]) d d'
  | [], d, h => ⟨d, rfl, .nil h⟩
  | host :: hosts, d, h => by
    obtain ⟨d1, e1, h1, u1⟩ := setAddressesF_call h host (lucky (k.v4 host) v4)
    obtain ⟨d2, e2, h2, u2⟩ := setIpv6AddressesF_call h1 host (lucky (k.v6 host) v6)
    obtain ⟨d', e, n⟩ := goF_upds k v4 v6 hosts h2
    refine ⟨d', ?_, .cons h u1 (.cons h1 u2 n)⟩
    unfold setInterfaceAddressesF.go
    exact (M.bind_ok e1).trans ((M.bind_ok e2).trans e)

theorem hostNamesF_ok {Q : Type} [QOps Q] {c : Core} {q : Q} {mem : Nat → Bool} : ∀ (rs : List Nat) (acc : List Bytes),
    (∀ r ∈ rs, ∃ x, c.recs r = some x) → ∃ hs, hostNamesF (Q := Q) mem rs acc ⟨c, q⟩ = .ok (hs, ⟨c, q⟩) ∧
      ∀ host, host ∈ hs ↔ host ∈ acc ∨ ∃ r ∈ rs, mem r = true ∧ ∃ x, c.recs r = some x ∧ (x.rr.type = 1 ∨ x.rr.type = 28) ∧ x.rr.name = host
  | [], acc, _ => ⟨acc, rfl, by simp⟩
  | r :: rs, acc, h => by
    obtain ⟨x, hx⟩ := h r (by simp)
    unfold hostNamesF
    rw [M.bind_ok (getRec_ok hx)]
    by_cases hc : (x.rr.type = 1 ∨ x.rr.type = 28) ∧ x.rr.name ∉ acc ∧ mem r = true
    · rw [if_pos hc]
      obtain ⟨hs, e, hm⟩ := hostNamesF_ok (q := q) (mem := mem) rs (acc ++ [x.rr.name]) fun r' m => h r' (by simp [m])
      refine ⟨hs, e, fun host => ?_⟩
      rw [hm]
      constructor
      · rintro (m | ⟨s, ms, k⟩)
        · rcases List.mem_append.mp m with m | m
          · exact .inl m
          · exact .inr ⟨r, List.mem_cons_self, hc.2.2, x, hx, hc.1, (List.mem_singleton.mp m).symm⟩
        · exact .inr ⟨s, List.mem_cons_of_mem _ ms, k⟩
      · rintro (m | ⟨s, ms, k1, y, hy, k2, k3⟩)
        · exact .inl (List.mem_append_left _ m)
        · rcases List.mem_cons.mp ms with rfl | ms
          · rw [hx] at hy
            cases hy
            exact .inl (List.mem_append_right _ (List.mem_singleton.mpr k3.symm))
          · exact .inr ⟨s, ms, k1, y, hy, k2, k3⟩
    · rw [if_neg hc]
      obtain ⟨hs, e, hm⟩ := hostNamesF_ok (q := q) (mem := mem) rs acc fun r' m => h r' (by simp [m])
      refine ⟨hs, e, fun host => ?_⟩
      rw [hm]
      constructor
      · rintro (m | ⟨s, ms, k⟩)
        · exact .inl m
        · exact .inr ⟨s, List.mem_cons_of_mem _ ms, k⟩
      · rintro (m | ⟨s, ms, k1, y, hy, k2, k3⟩)
        · exact .inl m
        · rcases List.mem_cons.mp ms with rfl | ms
          · rw [hx] at hy
            cases hy
            by_cases ha : x.rr.name ∈ acc
            · exact .inl (k3 ▸ ha)
            · exact absurd ⟨k2, ha, k1⟩ hc
          · exact .inr ⟨s, ms, k1, y, hy, k2, k3⟩

/-! ### The theorems -/

/-- The name of the host is remembered: at some address record of it there is memory. -/
def Listed (d : D Ptrs) (mem : Nat → Bool) (host : Bytes) : Prop :=
  ∃ r x, d.c.recs r = some x ∧ (x.rr.type = 1 ∨ x.rr.type = 28) ∧ x.rr.name = host ∧ mem r = true

theorem addF_enough {Q : Type} [QOps Q] (host : Bytes) (type ttl : Nat) : ∀ l : List Ip,
    addAddrsF (Q := Q) host type ttl (l.map fun a => (a, true)) = addAddrs host type ttl l
  | [] => rfl
  | a :: l => by
    unfold addAddrs
    rw [List.map_cons]
    unfold addAddrsF
    rw [addF_enough host type ttl l]
    rfl

theorem updateF_enough {Q : Type} [QOps Q] (host : Bytes) (type : Nat) (l : List Ip) :
    updateAddrsF (Q := Q) host type (l.map fun a => (a, true)) = updateAddrs host type l := by
  unfold updateAddrsF updateAddrs
  have : (l.map fun a => (a, true)).map (·.1) = l := by rw [List.map_map]; exact List.map_id l
  rw [this]
  funext d
  apply Conf.bind_congr
  intro f d
  cases f with
  | none =>
    show (addAddrsF host type 120 _ >>= _) d = _
    rw [addF_enough]
    rfl
  | some r =>
    apply Conf.bind_congr
    intro x d
    show (addAddrsF host type _ _ >>= _) d = _
    rw [addF_enough]
    rfl

theorem lucky_all {α : Type} (a : List α) : lucky (fun _ => true) a = a.map fun x => (x, true) := by
  unfold lucky
  conv => rhs; rw [← List.zipIdx_map_fst 0 a, List.map_map]
  rfl

theorem namesF_enough {Q : Type} [QOps Q] : ∀ (rs : List Nat) (acc : List Bytes),
    hostNamesF (Q := Q) (fun _ => true) rs acc = hostNames rs acc
  | [], _ => rfl
  | r :: rs, acc => by
    unfold hostNamesF hostNames
    funext d
    apply Conf.bind_congr
    intro x d
    rw [namesF_enough rs, namesF_enough rs]
    simp only [and_true]

/-- C116: with enough memory this is what C38 is about. -/
theorem C116_enough {Q : Type} [QOps Q] (v4 : List Ip4) (v6 : List Ip6) :
    setInterfaceAddressesF (Q := Q) ⟨fun _ => true, fun _ _ => true, fun _ _ => true⟩ v4 v6 = setInterfaceAddresses v4 v6 ∧
    (∀ host, setAddressesForHostF (Q := Q) host (v4.map fun a => (a, true)) = setAddressesForHost host v4) ∧
    ∀ host, setIpv6AddressesForHostF (Q := Q) host (v6.map fun a => (a, true)) = setIpv6AddressesForHost host v6 := by
  have e4 : ∀ host, setAddressesForHostF (Q := Q) host (v4.map fun a => (a, true)) = setAddressesForHost host v4 := by
    intro host
    unfold setAddressesForHostF setAddressesForHost
    rw [← updateF_enough, List.map_map, List.map_map]
    rfl
  have e6 : ∀ host, setIpv6AddressesForHostF (Q := Q) host (v6.map fun a => (a, true)) = setIpv6AddressesForHost host v6 := by
    intro host
    unfold setIpv6AddressesForHostF setIpv6AddressesForHost
    rw [← updateF_enough, List.map_map, List.map_map]
    rfl
  refine ⟨?_, e4, e6⟩
  have eg : ∀ hosts, setInterfaceAddressesF.go (Q := Q) ⟨fun _ => true, fun _ _ => true, fun _ _ => true⟩ v4 v6 hosts =
      setInterfaceAddresses.go v4 v6 hosts := by
    intro hosts
    induction hosts with
    | nil => rfl
    | cons host hosts ih =>
      unfold setInterfaceAddressesF.go setInterfaceAddresses.go
      rw [lucky_all, lucky_all, e4, e6, ih]
  unfold setInterfaceAddressesF setInterfaceAddresses
  funext d
  apply Conf.bind_congr
  intro c d
  rw [namesF_enough]
  apply Conf.bind_congr
  intro hs d
  rw [eg]

/-- C116, one host: afterwards it has exactly the given IPv4 addresses for which there was memory or which it had before; all other records,
and those with a given address, are untouched.  Missing: addresses whose records are being withdrawn, as in C38. -/
theorem C116_v4_partial {env : Env} {d : D Ptrs} (h : Reach env d) (host : Bytes) (a : List (Ip4 × Bool))
    (hn : NoneLeaving4 d host (a.map (·.1))) :
    ∃ d', setAddressesForHostF host a d = .ok ((), d') ∧ Reach env d' ∧
      (∀ ip, HasV4 d' host ip ↔ (ip, true) ∈ a ∨ (ip ∈ a.map (·.1) ∧ HasV4 d host ip)) ∧
      ∀ r x, d.c.recs r = some x → x.rr.name ≠ host ∨ x.rr.type ≠ 1 ∨ x.rr.ip ∈ a.map (·.1) → Untouched d d' r := by
  obtain ⟨d', e, h', u⟩ := setAddressesF_call h host a
  have em : (a.map fun w => (Ip.v4 w.1, w.2)).map (·.1) = (a.map (·.1)).map Ip.v4 := by rw [List.map_map, List.map_map]; rfl
  obtain ⟨k, _⟩ := kept_exact h u (by rw [em]; exact hn.core)
  refine ⟨d', e, h', fun ip => ?_, fun r x hx hc => untouched_of h h' (u.keep r x hx ?_)⟩
  · rw [has4, k, em, has4]
    refine or_congr ⟨fun m => ?_, fun m => List.mem_map.mpr ⟨_, m, rfl⟩⟩ (and_congr (by simp) Iff.rfl)
    obtain ⟨⟨w, b⟩, m', q⟩ := List.mem_map.mp m
    injection q with q1 q2
    injection q1 with q1
    have q2 : b = true := q2
    subst q1 q2
    exact m'
  · rintro ⟨ho, hm⟩
    rcases hc with hc | hc | hc
    · exact hc ho.2
    · exact hc ho.1
    · refine hm (mem_kept.mpr (.inr ⟨?_, (haveAddr_iff h).mpr ⟨r, x, hx, ho, rfl⟩⟩))
      rw [em]
      exact List.mem_map.mpr ⟨_, hc, (addrOf4.mpr rfl).symm⟩

/-- C116, one host, IPv6. -/
theorem C116_v6_partial {env : Env} {d : D Ptrs} (h : Reach env d) (host : Bytes) (a : List (Ip6 × Bool))
    (hn : NoneLeaving6 d host (a.map (·.1))) :
    ∃ d', setIpv6AddressesForHostF host a d = .ok ((), d') ∧ Reach env d' ∧
      (∀ ip, HasV6 d' host ip ↔ (ip, true) ∈ a ∨ (ip ∈ a.map (·.1) ∧ HasV6 d host ip)) ∧
      ∀ r x, d.c.recs r = some x → x.rr.name ≠ host ∨ x.rr.type ≠ 28 ∨ x.rr.ip6 ∈ a.map (·.1) → Untouched d d' r := by
  obtain ⟨d', e, h', u⟩ := setIpv6AddressesF_call h host a
  have em : (a.map fun w => (Ip.v6 w.1, w.2)).map (·.1) = (a.map (·.1)).map Ip.v6 := by rw [List.map_map, List.map_map]; rfl
  obtain ⟨k, _⟩ := kept_exact h u (by rw [em]; exact hn.core)
  refine ⟨d', e, h', fun ip => ?_, fun r x hx hc => untouched_of h h' (u.keep r x hx ?_)⟩
  · rw [has6, k, em, has6]
    refine or_congr ⟨fun m => ?_, fun m => List.mem_map.mpr ⟨_, m, rfl⟩⟩ (and_congr (by simp) Iff.rfl)
    obtain ⟨⟨w, b⟩, m', q⟩ := List.mem_map.mp m
    injection q with q1 q2
    injection q1 with q1
    have q2 : b = true := q2
    subst q1 q2
    exact m'
  · rintro ⟨ho, hm⟩
    rcases hc with hc | hc | hc
    · exact hc ho.2
    · exact hc ho.1
    · refine hm (mem_kept.mpr (.inr ⟨?_, (haveAddr_iff h).mpr ⟨r, x, hx, ho, rfl⟩⟩))
      rw [em]
      exact List.mem_map.mpr ⟨_, hc, (addrOf6.mpr rfl).symm⟩

/-- C116, the interface: a host whose name was remembered has exactly the addresses of the interface for which there was memory or which it
had before; other records are untouched.  Missing: addresses being withdrawn, as in C38, and hosts whose name got no memory, which keep
all their addresses (`C116_stale_counterexample`). -/
theorem C116_interface_partial {env : Env} {d : D Ptrs} (h : Reach env d) (k : IfLuck) (v4 : List Ip4) (v6 : List Ip6) :
    ∃ d', setInterfaceAddressesF k v4 v6 d = .ok ((), d') ∧ Reach env d' ∧
      (∀ host, Listed d k.name host → NoneLeaving4 d host v4 → ∀ ip,
        HasV4 d' host ip ↔ (∃ n : Nat, v4[n]? = some ip ∧ k.v4 host n = true) ∨ (ip ∈ v4 ∧ HasV4 d host ip)) ∧
      (∀ host, Listed d k.name host → NoneLeaving6 d host v6 → ∀ ip,
        HasV6 d' host ip ↔ (∃ n : Nat, v6[n]? = some ip ∧ k.v6 host n = true) ∨ (ip ∈ v6 ∧ HasV6 d host ip)) ∧
      ∀ r x, (x.rr.type ≠ 1 ∧ x.rr.type ≠ 28) ∨ ¬ Listed d k.name x.rr.name → (d'.c.recs r = some x ↔ d.c.recs r = some x) := by
  obtain ⟨hs, eh, hm⟩ := hostNamesF_ok (c := d.c) (q := d.q) (mem := k.name) d.c.allPublished [] h.inv.rinv.allrec
  obtain ⟨d', e, n⟩ := goF_upds k v4 v6 hs h
  have listed : ∀ host, host ∈ hs ↔ Listed d k.name host := by
    intro host
    rw [hm]
    constructor
    · rintro (m | ⟨r, _, k1, x, hx, k2, k3⟩)
      · cases m
      · exact ⟨r, x, hx, k2, k3, k1⟩
    · rintro ⟨r, x, hx, k2, k3, k1⟩
      exact .inr ⟨r, h.inv.rinv.mem_all hx, k1, x, hx, k2, k3⟩
  refine ⟨d', ?_, n.reach, ?_, ?_, ?_⟩
  · unfold setInterfaceAddressesF
    rw [M.bind_ok core_ok, M.bind_ok eh]
    exact e
  · intro host hl hn ip
    have em : (k.lists v4 v6 host 1).map (·.1) = v4.map Ip.v4 := by
      unfold IfLuck.lists
      rw [if_pos rfl, List.map_map]
      conv => rhs; rw [← lucky_fst (m := k.v4 host) (a := v4), List.map_map]
      rfl
    have hp : (host, 1) ∈ hs.flatMap fun h => [(h, 1), (h, 28)] := List.mem_flatMap.mpr ⟨host, (listed host).mpr hl, by simp⟩
    rw [has4, n.exact hp (by rw [em]; exact hn.core), em, has4, ← mem_lucky]
    refine or_congr ?_ (and_congr (by simp) Iff.rfl)
    unfold IfLuck.lists
    rw [if_pos rfl]
    refine ⟨fun m => ?_, fun m => List.mem_map.mpr ⟨_, m, rfl⟩⟩
    obtain ⟨⟨w, b⟩, m', q⟩ := List.mem_map.mp m
    injection q with q1 q2
    injection q1 with q1
    have q2 : b = true := q2
    subst q1 q2
    exact m'
  · intro host hl hn ip
    have em : (k.lists v4 v6 host 28).map (·.1) = v6.map Ip.v6 := by
      unfold IfLuck.lists
      rw [if_neg (by decide), List.map_map]
      conv => rhs; rw [← lucky_fst (m := k.v6 host) (a := v6), List.map_map]
      rfl
    have hp : (host, 28) ∈ hs.flatMap fun h => [(h, 1), (h, 28)] := List.mem_flatMap.mpr ⟨host, (listed host).mpr hl, by simp⟩
    rw [has6, n.exact hp (by rw [em]; exact hn.core), em, has6, ← mem_lucky]
    refine or_congr ?_ (and_congr (by simp) Iff.rfl)
    unfold IfLuck.lists
    rw [if_neg (by decide)]
    refine ⟨fun m => ?_, fun m => List.mem_map.mpr ⟨_, m, rfl⟩⟩
    obtain ⟨⟨w, b⟩, m', q⟩ := List.mem_map.mp m
    injection q with q1 q2
    injection q1 with q1
    have q2 : b = true := q2
    subst q1 q2
    exact m'
  · intro r x hx
    refine n.other fun q m ho => ?_
    obtain ⟨host, mh, m⟩ := List.mem_flatMap.mp m
    have hq : q.1 = host ∧ (q.2 = 1 ∨ q.2 = 28) := by
      simp only [List.mem_cons, List.not_mem_nil, or_false] at m
      rcases m with rfl | rfl
      · exact ⟨rfl, .inl rfl⟩
      · exact ⟨rfl, .inr rfl⟩
    rcases hx with hx | hx
    · rcases hq.2 with e | e
      · exact hx.1 (ho.1.trans e)
      · exact hx.2 (ho.1.trans e)
    · exact hx ((listed _).mp (by rw [ho.2, hq.1]; exact mh))

/-- C116, the full statement is false: a host whose name gets no memory at any of its records keeps every address it has, also those
the interface no longer has, for every interface and whatever else there is memory for. -/
theorem C116_stale_counterexample {env : Env} {d : D Ptrs} (h : Reach env d) (k : IfLuck) (v4 : List Ip4) (v6 : List Ip6) {host : Bytes}
    {ip : Ip4} (hk : ∀ r x, d.c.recs r = some x → x.rr.name = host → k.name r = false) (hi : HasV4 d host ip) :
    ∃ d', setInterfaceAddressesF k v4 v6 d = .ok ((), d') ∧ HasV4 d' host ip := by
  obtain ⟨d', e, _, _, _, o⟩ := C116_interface_partial h k v4 v6
  obtain ⟨r, x, hx, h1, h2, h3, h4⟩ := hi
  refine ⟨d', e, r, x, (o r x (.inr ?_)).mpr hx, h1, h2, h3, h4⟩
  rintro ⟨s, y, hy, _, k2, k3⟩
  rw [hk s y hy (k2.trans h1)] at k3
  cases k3

/-! ### Examples -/

open Sample

/-- A host has two addresses; one of them is gone, one of two new ones gets no memory. -/
example : ∃ d', setAddressesForHostF (nm 97) [(ipB, false), (ipC, true), (#v[10, 0, 0, 4], false)] (trace quiet homed fresh).2 = .ok ((), d') ∧
    HasV4 (trace quiet homed fresh).2 (nm 97) ipA ∧ ∀ ip, HasV4 d' (nm 97) ip ↔ ip = ipB ∨ ip = ipC := by
  have hr := (hist_of (ops := homed) (by decide +kernel)).reach
  have have4 : ∀ ip, (List.range (trace quiet homed fresh).2.lists.size).any (fun r => ((trace quiet homed fresh).2.c.recs r).any fun x =>
      decide (x.rr.name = nm 97 ∧ x.rr.type = 1 ∧ x.rr.ttl ≠ 0 ∧ x.rr.ip = ip)) = true → HasV4 (trace quiet homed fresh).2 (nm 97) ip := by
    intro ip h
    obtain ⟨r, _, h⟩ := List.any_eq_true.mp h
    cases hx : (trace quiet homed fresh).2.c.recs r with
    | none => rw [hx] at h; cases h
    | some x =>
      rw [hx] at h
      exact ⟨r, x, hx, of_decide_eq_true h⟩
  have hB := have4 ipB (by decide +kernel)
  have no4 : ∀ ip, HasV4 (trace quiet homed fresh).2 (nm 97) ip → ip = ipA ∨ ip = ipB := by
    rintro ip ⟨r, x, hx, h1, h2, _, rfl⟩
    have := all_of hr (p := fun x => x.rr.name != nm 97 || x.rr.type != 1 || decide (x.rr.ip = ipA ∨ x.rr.ip = ipB)) (by decide +kernel) hx
    simpa [h1, h2] using this
  obtain ⟨d', e, _, k, _⟩ := C116_v4_partial hr (nm 97) [(ipB, false), (ipC, true), (#v[10, 0, 0, 4], false)]
    (noneLeaving4_of hr (by decide +kernel))
  refine ⟨d', e, have4 ipA (by decide +kernel), fun ip => ?_⟩
  rw [k]
  constructor
  · rintro (m | ⟨m, h⟩)
    · simp at m
      exact .inr m
    · rcases no4 ip h with rfl | rfl
      · revert m; decide
      · exact .inl rfl
  · rintro (rfl | rfl)
    · exact .inr ⟨by simp, hB⟩
    · exact .inl (by simp)

/-- The interface has another address now, but there is no memory for the name of the host. -/
example : ∃ d', setInterfaceAddressesF ⟨fun _ => false, fun _ _ => true, fun _ _ => true⟩ [ipC] [ipY] (trace quiet homed fresh).2 = .ok ((), d') ∧
    HasV4 d' (nm 97) ipA := by
  have hr := (hist_of (ops := homed) (by decide +kernel)).reach
  refine C116_stale_counterexample hr _ [ipC] [ipY] (fun _ _ _ _ => rfl) ?_
  have h : ((trace quiet homed fresh).2.c.recs 0).any (fun x =>
      decide (x.rr.name = nm 97 ∧ x.rr.type = 1 ∧ x.rr.ttl ≠ 0 ∧ x.rr.ip = ipA)) = true := by decide +kernel
  cases hx : (trace quiet homed fresh).2.c.recs 0 with
  | none => rw [hx] at h; cases h
  | some x =>
    rw [hx] at h
    exact ⟨0, x, hx, of_decide_eq_true h⟩

end Mdns
