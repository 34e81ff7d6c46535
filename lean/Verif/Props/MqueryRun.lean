import Verif.Lemmas.MqueryRun

/-!
# C81: what `mquery -D` lists was received, and what it hears of is listed
-/

namespace Mdns.Mquery

/-! ### Specification -/

/-- A datagram arrived from `src` at `now` that is a response with the answer `r`, and `r` is not a goodbye.  The
message is what the parser makes of the datagram in a receive buffer with whatever was in it before. -/
def Got (rs : List Round) (now : TV) (src : Addr) (r : Resource) : Prop :=
  r.ttl ≠ 0 ∧ ∃ x ∈ rs.flatMap (·.datagrams), ∃ buf m, x.2.data ≠ [] ∧ x.2.clock = now ∧ x.2.src = src ∧
    messageParse ⟨maxPacketLen, received buf (x.2.data.take maxPacketLen)⟩ structCap = .ok m ∧ m.header.qr = true ∧ r ∈ m.an

/-- The same, from anywhere at any time. -/
def GotAny (rs : List Round) (r : Resource) : Prop := ∃ now src, Got rs now src r

/-- The device has the name of an address record received, and all its addresses were received for this name.  Names are
cut after 255 bytes. -/
structure DeviceGot (np : Ntop) (rs : List Round) (d : Dev) : Prop where
  name : ∃ r, GotAny rs r ∧ (r.type = 1 ∨ r.type = 28) ∧ r.name.take 255 = d.hostname
  addrs : ∀ x ∈ d.addrs, ∃ r, GotAny rs r ∧ r.name.take 255 = d.hostname ∧
    ((r.type = 1 ∧ ∃ ip, r.known = .a ip ∧ x = np.v4 (toVec 4 ip)) ∨ (r.type = 28 ∧ ∃ ip, r.known = .aaaa ip ∧ x = np.v6 (toVec 16 ip)))

/-- The service was pointed to, or has an SRV or TXT record; host and port are those of an SRV record, product and version
those of TXT records of this name, all received. -/
structure ServiceGot (rs : List Round) (i : Inst) : Prop where
  name : ∃ r, GotAny rs r ∧ ((r.type = 12 ∧ ∃ n, r.known = .name n ∧ n.take 255 = i.iname) ∨
    ((r.type = 33 ∨ r.type = 16) ∧ r.name.take 255 = i.iname))
  host : i.hostname ≠ [] → ∃ r p w n, GotAny rs r ∧ r.type = 33 ∧ r.name.take 255 = i.iname ∧ r.known = .srv p w i.port n ∧
    n.take 255 = i.hostname
  bare : i.hostname = [] → i.port = 0
  product : i.product ≠ [] → ∃ r v, GotAny rs r ∧ r.type = 16 ∧ r.name.take 255 = i.iname ∧ TxtEntry r.rdata kwProduct v ∧
    v.take 63 = i.product
  version : i.version ≠ [] → ∃ r v, GotAny rs r ∧ r.type = 16 ∧ r.name.take 255 = i.iname ∧ TxtEntry r.rdata kwVersion v ∧
    v.take 63 = i.version

/-! ### Proofs -/

theorem devEnv_stop (np : Ntop) (ifs : Nat → Option (List Ip)) (log : List Event) : ((devEnv np ifs).answer log).stop = false := by
  show (devAct np log).stop = false
  unfold devAct
  split <;> rfl

theorem ansEnv_stop (s : Bool) (ifs : Nat → Option (List Ip)) (log : List Event) : ((ansEnv s ifs).answer log).stop = false := by
  show (ansAct s log).stop = false
  unfold ansAct
  split <;> rfl

theorem devEnv_keeps (np : Ntop) (ifs : Nat → Option (List Ip)) : (devEnv np ifs).KeepOnExpiry := fun _ _ _ _ _ => devEnv_stop ..

theorem ansEnv_keeps (s : Bool) (ifs : Nat → Option (List Ip)) : (ansEnv s ifs).KeepOnExpiry := fun _ _ _ _ _ => ansEnv_stop ..

/-- What the program does with the library. -/
theorem program_was {env : Env} (hk : env.KeepOnExpiry) {f : Family} {name : Bytes} {type : Nat} {o : Opts} {start fuel : Nat} {rs : List Round}
    {k k' : Kept} {t0 : TV} {v : Verdict} {tvs : List TV} {d : D Ptrs}
    (e : program env f name type o start fuel rs k (newD 1 1000 t0) = .ok ((v, tvs, k'), d)) :
    ∃ hs, Hist env ((.setFamily f, .unit) :: (.query name type (some 0), .unit) :: hs) d ∧
      ∀ c ∈ hs, c.1.ofStep = true ∧ Came (rs.flatMap (·.datagrams)) c.1 := by
  unfold program at e
  have r0 : Reach env (newD 1 1000 t0) := .new ..
  cases e1 : Mdns.step env (.setFamily f) (newD 1 1000 t0) with
  | ub => cases e1
  | hang => cases e1
  | ok p =>
    obtain ⟨a1, d1⟩ := p
    rw [M.bind_ok e1] at e
    have n1 : Calls env (newD 1 1000 t0) [(.setFamily f, a1)] d1 := .just (o := .setFamily f) trivial e1
    have h1 := n1.reach r0
    obtain rfl : a1 = .unit := by
      clear e n1 h1
      cases e1
      rfl
    cases e2 : Mdns.step env (.query name type (some 0)) d1 with
    | ub => rw [M.bind_ub e2] at e; cases e
    | hang => rw [M.bind_hang e2] at e; cases e
    | ok p =>
      obtain ⟨a2, d2⟩ := p
      rw [M.bind_ok e2] at e
      have n2 : Calls env _ [(.query name type (some 0), a2)] d2 := .just (o := .query name type (some 0)) trivial e2
      have h2 := n2.reach h1
      obtain ⟨⟨hs, n3, ho⟩, _⟩ := rounds_was hk rs h2 e
      have ha : a2 = .unit := by
        have hd := h1.did (o := .query name type (some 0)) trivial e2
        generalize d2.c = c', d2.lists = l' at hd
        cases hd
        rfl
      subst ha
      exact ⟨hs, (n1.append (n2.append n3)).hist, ho⟩

/-- What the callbacks are told arrived. -/
theorem program_told {env : Env} (hk : env.KeepOnExpiry) {f : Family} {name : Bytes} {type : Nat} {o : Opts} {start fuel : Nat} {rs : List Round}
    {k k' : Kept} {t0 : TV} {v : Verdict} {tvs : List TV} {d : D Ptrs}
    (e : program env f name type o start fuel rs k (newD 1 1000 t0) = .ok ((v, tvs, k'), d)) :
    ∀ q cb b, Event.answer q cb b ∈ d.c.log → ∃ now src r, Got rs now src r ∧ r.WF ∧ Shows r src b ∧ (b.ttl = 0 ∨ b.ttl = lease now r) := by
  obtain ⟨hs, n, ho⟩ := program_was hk e
  intro q cb b m
  obtain ⟨now, src, r, ⟨ht, msg, out, mh, hq, mr⟩, h2, h3⟩ := C80_reported n q cb b m
  rcases List.mem_cons.mp mh with mh | mh
  · cases mh
  rcases List.mem_cons.mp mh with mh | mh
  · cases mh
  obtain ⟨_, x, mx, buf, h4, h5, h6, h7⟩ := ho _ mh
  exact ⟨now, src, r, ⟨ht, x, mx, buf, msg, h4, h5, h6, h7, hq, mr⟩, messageParse_wf h7 r mr, h2, h3⟩

theorem carries_name {r : Resource} {b : Answer} (h : carries r b = true) : b.name = r.name ∧ b.type = r.type := by
  unfold carries at h
  simp only [Bool.and_eq_true, beq_iff_eq] at h
  exact h.1

theorem carries_a {r : Resource} {b : Answer} (h : carries r b = true) (hw : r.WF) (ht : b.type = 1) :
    ∃ ip, r.known = .a ip ∧ b.ip = toVec 4 ip := by
  obtain ⟨ip, hk⟩ := hw.a ((carries_name h).2.symm.trans ht)
  unfold carries at h
  rw [hk] at h
  simp only [Bool.and_eq_true, beq_iff_eq] at h
  exact ⟨ip, hk, h.2⟩

theorem carries_aaaa {r : Resource} {b : Answer} (h : carries r b = true) (hw : r.WF) (ht : b.type = 28) :
    ∃ ip, r.known = .aaaa ip ∧ b.ip6 = toVec 16 ip := by
  obtain ⟨ip, hk⟩ := hw.aaaa ((carries_name h).2.symm.trans ht)
  unfold carries at h
  rw [hk] at h
  simp only [Bool.and_eq_true, beq_iff_eq] at h
  exact ⟨ip, hk, h.2⟩

theorem carries_ptr {r : Resource} {b : Answer} (h : carries r b = true) (hw : r.WF) (ht : b.type = 12) :
    ∃ n, r.known = .name n ∧ b.rdname = some n := by
  obtain ⟨n, hk⟩ := hw.name (.inr (.inr ((carries_name h).2.symm.trans ht)))
  unfold carries at h
  rw [hk] at h
  simp only [Bool.and_eq_true, beq_iff_eq] at h
  exact ⟨n, hk, h.2⟩

theorem carries_srv {r : Resource} {b : Answer} (h : carries r b = true) (hw : r.WF) (ht : b.type = 33) :
    ∃ n, r.known = .srv b.priority b.weight b.port n ∧ b.rdname = some n := by
  obtain ⟨p, w, o, n, hk⟩ := hw.srv ((carries_name h).2.symm.trans ht)
  unfold carries at h
  rw [hk] at h
  simp only [Bool.and_eq_true, beq_iff_eq] at h
  obtain ⟨_, ⟨⟨h1, h2⟩, h3⟩, h4⟩ := h
  exact ⟨n, by rw [hk, h2, h3, h4], h1⟩

section
variable {np : Ntop} {ifs : Nat → Option (List Ip)} {f : Family} {o : Opts} {start fuel : Nat} {rs : List Round} {k k' : Kept} {t0 : TV}
  {v : Verdict} {tvs : List TV} {d : D Ptrs}

/-- C81, what is listed: every device `mquery -D` lists, and every address of it, was received. -/
theorem C81_devices (e : program (devEnv np ifs) f discoName 12 o start fuel rs k (newD 1 1000 t0) = .ok ((v, tvs, k'), d)) :
    ∀ dev ∈ (tablesOf np d.c.log).devices, DeviceGot np rs dev := by
  intro dev hd
  obtain ⟨⟨a, ⟨h0, q, cb, m⟩, ht, hn⟩, ha⟩ := (tablesOf_from np d.c.log).devs dev hd
  have told := program_told (devEnv_keeps np ifs) e
  constructor
  · obtain ⟨now, src, r, g, hw, s, _⟩ := told q cb a m
    obtain ⟨e1, e2⟩ := carries_name s.data
    exact ⟨r, ⟨now, src, g⟩, by rw [← e2]; exact ht, by rw [← e1]; exact hn⟩
  · intro x hx
    obtain ⟨a, ⟨h0, q, cb, m⟩, hn, hc⟩ := ha x hx
    obtain ⟨now, src, r, g, hw, s, _⟩ := told q cb a m
    obtain ⟨e1, e2⟩ := carries_name s.data
    refine ⟨r, ⟨now, src, g⟩, by rw [← e1]; exact hn, ?_⟩
    rcases hc with ⟨ht, rfl⟩ | ⟨ht, rfl⟩
    · obtain ⟨ip, hk, hi⟩ := carries_a s.data hw ht
      exact .inl ⟨e2.symm.trans ht, ip, hk, by rw [hi]⟩
    · obtain ⟨ip, hk, hi⟩ := carries_aaaa s.data hw ht
      exact .inr ⟨e2.symm.trans ht, ip, hk, by rw [hi]⟩

/-- C81, what is listed: every service, with its host, port, product and version, was received. -/
theorem C81_services (e : program (devEnv np ifs) f discoName 12 o start fuel rs k (newD 1 1000 t0) = .ok ((v, tvs, k'), d)) :
    ∀ i ∈ (tablesOf np d.c.log).instances, ServiceGot rs i := by
  intro i hi
  have h := (tablesOf_from np d.c.log).insts i hi
  have told := program_told (devEnv_keeps np ifs) e
  have txt : ∀ key s, (∃ a v, (a.ttl ≠ 0 ∧ ∃ q cb, Event.answer q cb a ∈ d.c.log) ∧ a.type = 16 ∧ a.name.take 255 = i.iname ∧
      TxtEntry (a.rdata.getD []) key v ∧ v.take 63 = s) →
      ∃ r v, GotAny rs r ∧ r.type = 16 ∧ r.name.take 255 = i.iname ∧ TxtEntry r.rdata key v ∧ v.take 63 = s := by
    rintro key s ⟨a, v, ⟨h0, q, cb, m⟩, ht, hn, hv, hs⟩
    obtain ⟨now, src, r, g, hw, s, _⟩ := told q cb a m
    obtain ⟨e1, e2⟩ := carries_name s.data
    exact ⟨r, v, ⟨now, src, g⟩, e2.symm.trans ht, by rw [← e1]; exact hn, by rw [← s.raw]; exact hv, hs⟩
  refine ⟨?_, ?_, h.bare, fun hp => txt _ _ (h.product hp), fun hp => txt _ _ (h.version hp)⟩
  · obtain ⟨a, ⟨h0, q, cb, m⟩, hc⟩ := h.name
    obtain ⟨now, src, r, g, hw, s, _⟩ := told q cb a m
    obtain ⟨e1, e2⟩ := carries_name s.data
    refine ⟨r, ⟨now, src, g⟩, ?_⟩
    rcases hc with ⟨ht, n, hr, hn⟩ | ⟨ht, hn⟩
    · obtain ⟨n', hk, hr'⟩ := carries_ptr s.data hw ht
      rw [hr] at hr'
      cases hr'
      exact .inl ⟨e2.symm.trans ht, n, hk, hn⟩
    · exact .inr ⟨by rw [← e2]; exact ht, by rw [← e1]; exact hn⟩
  · intro hh
    obtain ⟨a, n, ⟨h0, q, cb, m⟩, ht, hn, hr, hl, hp⟩ := h.host hh
    obtain ⟨now, src, r, g, hw, s, _⟩ := told q cb a m
    obtain ⟨e1, e2⟩ := carries_name s.data
    obtain ⟨n', hk, hr'⟩ := carries_srv s.data hw ht
    rw [hr] at hr'
    cases hr'
    rw [hp] at hk
    exact ⟨r, _, _, n, ⟨now, src, g⟩, e2.symm.trans ht, by rw [← e1]; exact hn, hk, hl⟩

end

/-! ### Questions -/

/-- The queries one call of `ans_dev` makes. -/
inductive NewAsked (t : Tables) (a : Answer) (arg : Bool) : List (Bytes × Nat) → Prop
  | none (h : ∀ rd, a.rdname = some rd → rd ≠ [] → a.ttl ≠ 0 → a.type ≠ 12 ∧
      (a.type = 33 → ∃ i ∈ t.instances, i.iname = a.name ∧ i.hostname ≠ [])) : NewAsked t a arg []
  | type {rd : Bytes} (h0 : a.ttl ≠ 0) (ht : a.type = 12) (hr : a.rdname = some rd) (hn : rd ≠ []) (ha : arg = false) : NewAsked t a arg [(rd, 12)]
  | inst {rd : Bytes} (h0 : a.ttl ≠ 0) (ht : a.type = 12) (hr : a.rdname = some rd) (hn : rd ≠ []) (ha : arg = true) :
      NewAsked t a arg [(rd, 33), (rd, 16)]
  | host {rd : Bytes} (h0 : a.ttl ≠ 0) (ht : a.type = 33) (hr : a.rdname = some rd) (hn : rd ≠ []) : NewAsked t a arg [(rd, 1), (rd, 28)]

theorem ansDev_asked (np : Ntop) (t : Tables) (a : Answer) (arg : Bool) :
    ∃ new, (ansDev np t a arg).asked = t.asked ++ new ∧ NewAsked t a arg new := by
  have none : (∀ rd, a.rdname = some rd → rd ≠ [] → a.ttl ≠ 0 → a.type ≠ 12 ∧
      (a.type = 33 → ∃ i ∈ t.instances, i.iname = a.name ∧ i.hostname ≠ [])) → ∃ new, t.asked = t.asked ++ new ∧ NewAsked t a arg new :=
    fun h => ⟨[], by simp, .none h⟩
  unfold ansDev
  split
  · rename_i h0
    exact none fun _ _ _ h => absurd h0 h
  rename_i h0
  split
  · rename_i ht
    split
    · rename_i hr
      exact none fun _ h => by rw [hr] at h; cases h
    · rename_i rd hr
      split
      · rename_i he
        refine none fun rd' h hn => ?_
        rw [hr] at h
        cases h
        exact absurd (List.isEmpty_iff.mp he) hn
      · rename_i he
        have hn : rd ≠ [] := fun h => he (by rw [h]; rfl)
        split
        · rename_i ha
          exact ⟨_, rfl, .type h0 ht hr hn (by simpa using ha)⟩
        · rename_i ha
          exact ⟨_, rfl, .inst h0 ht hr hn (by simpa using ha)⟩
  · rename_i h12
    split
    · rename_i ht
      split
      · rename_i hr
        exact none fun _ h => by rw [hr] at h; cases h
      · rename_i rd hr
        split
        · rename_i he
          refine none fun rd' h hn => ?_
          rw [hr] at h
          cases h
          exact absurd (List.isEmpty_iff.mp he) hn
        · rename_i he
          have hn : rd ≠ [] := fun h => he (by rw [h]; rfl)
          dsimp only
          split
          · exact ⟨_, rfl, .host h0 ht hr hn⟩
          · rename_i hf
            refine none fun _ _ _ _ => ⟨h12, fun _ => ?_⟩
            cases hi : t.instances.find? (·.iname == a.name) with
            | none => rw [hi] at hf; exact absurd rfl hf
            | some i =>
              rw [hi] at hf
              refine ⟨i, List.mem_of_find?_eq_some hi, by simpa using List.find?_some hi, fun h => hf ?_⟩
              simp [h]
    · rename_i h33
      have other : ∀ rd, a.rdname = some rd → rd ≠ [] → a.ttl ≠ 0 → a.type ≠ 12 ∧
        (a.type = 33 → ∃ i ∈ t.instances, i.iname = a.name ∧ i.hostname ≠ []) := fun _ _ _ _ => ⟨h12, fun h => absurd h h33⟩
      split
      · split
        · exact none other
        · split
          · exact none other
          · split <;> exact none other
      · split
        · exact none other
        · split <;> exact none other

theorem devAct_at (np : Ntop) (pre : List Event) (q cb : Nat) (rr : Answer) :
    ∃ new, NewAsked (tablesOf np pre) rr (cb == 1) new ∧
      (devAct np (pre ++ [.answer q cb rr])).reg = new.map fun x => (x.1, x.2, if x.2 = 12 then 1 else 0) := by
  obtain ⟨new, e, h⟩ := ansDev_asked np (tablesOf np pre) rr (cb == 1)
  refine ⟨new, h, ?_⟩
  unfold devAct
  rw [List.getLast?_append, List.getLast?_singleton, List.dropLast_concat]
  simp only [Option.some_or]
  rw [e, List.drop_left]

/-- C81, what is asked: `mquery -D` asks for the list of services, and otherwise only for names it was told: those pointed
to by PTR records, and the hosts of SRV records. -/
theorem C81_asks {np : Ntop} {ifs : Nat → Option (List Ip)} {f : Family} {o : Opts} {start fuel : Nat} {rs : List Round} {k k' : Kept} {t0 : TV}
    {v : Verdict} {tvs : List TV} {d : D Ptrs}
    (e : program (devEnv np ifs) f discoName 12 o start fuel rs k (newD 1 1000 t0) = .ok ((v, tvs, k'), d)) :
    ∀ host type cb, Event.registered host type cb ∈ d.c.log → (host = discoName ∧ type = 12) ∨
      ∃ r, GotAny rs r ∧ ((r.type = 12 ∧ r.known = .name host ∧ (type = 12 ∨ type = 33 ∨ type = 16)) ∨
        (r.type = 33 ∧ (∃ p w o, r.known = .srv p w o host) ∧ (type = 1 ∨ type = 28))) := by
  intro host type cb m
  have told := program_told (devEnv_keeps np ifs) e
  obtain ⟨hs, n, ho⟩ := program_was (devEnv_keeps np ifs) e
  rcases n.gram.source host type cb m with ⟨out, mh⟩ | ⟨pre, q, cb', rr, post, hl, hr⟩
  · rcases List.mem_cons.mp mh with mh | mh
    · cases mh
    rcases List.mem_cons.mp mh with mh | mh
    · cases mh
      exact .inl ⟨rfl, rfl⟩
    · exact absurd (ho _ mh).1 (by simp [Op.ofStep])
  · right
    obtain ⟨now, src, r, g, hw, s, _⟩ := told q cb' rr (by rw [hl]; simp)
    obtain ⟨e1, e2⟩ := carries_name s.data
    obtain ⟨new, hnew, hreg⟩ := devAct_at np pre q cb' rr
    have hr' : (host, type, cb) ∈ (devAct np (pre ++ [.answer q cb' rr])).reg := hr
    rw [hreg] at hr'
    obtain ⟨⟨x, y⟩, mx, ex⟩ := List.mem_map.mp hr'
    cases ex
    clear hr hr' hreg
    refine ⟨r, ⟨now, src, g⟩, ?_⟩
    cases hnew with
    | none => cases mx
    | type h0 ht hr hn _ =>
      cases List.mem_singleton.mp mx
      obtain ⟨n', hk, hr2⟩ := carries_ptr s.data hw ht
      rw [hr] at hr2
      cases hr2
      exact .inl ⟨e2.symm.trans ht, hk, .inl rfl⟩
    | inst h0 ht hr hn _ =>
      obtain ⟨n', hk, hr2⟩ := carries_ptr s.data hw ht
      rw [hr] at hr2
      cases hr2
      refine .inl ⟨e2.symm.trans ht, ?_⟩
      simp only [List.mem_cons, Prod.mk.injEq, List.not_mem_nil, or_false] at mx
      rcases mx with ⟨rfl, rfl⟩ | ⟨rfl, rfl⟩
      · exact ⟨hk, .inr (.inl rfl)⟩
      · exact ⟨hk, .inr (.inr rfl)⟩
    | host h0 ht hr hn =>
      obtain ⟨n', hk, hr2⟩ := carries_srv s.data hw ht
      rw [hr] at hr2
      cases hr2
      refine .inr ⟨e2.symm.trans ht, ?_⟩
      simp only [List.mem_cons, Prod.mk.injEq, List.not_mem_nil, or_false] at mx
      rcases mx with ⟨rfl, rfl⟩ | ⟨rfl, rfl⟩
      · exact ⟨⟨_, _, _, hk⟩, .inl rfl⟩
      · exact ⟨⟨_, _, _, hk⟩, .inr rfl⟩

/-! ### What is heard of is followed and listed -/

/-- The calls of an application that ends no query. -/
def KeepsAsking (h : List Call) : Prop := ∀ c ∈ h, ∀ n t, c.1 ≠ .query n t none

theorem never_ends {env : Env} (hk : ∀ log, (env.answer log).stop = false) {h : List Call} {d : D Ptrs} (n : Hist env h d) (ha : KeepsAsking h) :
    ∀ host type, Event.unregistered host type ∉ d.c.log := by
  intro host type m
  rcases n.gram.ends host type m with ⟨out, mh⟩ | ⟨pre, q, cb', rr, post, _, hs⟩
  · exact ha _ mh _ _ rfl
  · rw [hk] at hs
    cases hs

theorem registered_stays {log : List Event} {host : Bytes} {type cb : Nat} (m : Event.registered host type cb ∈ log)
    (hn : Event.unregistered host type ∉ log) : (callback log host type).isSome := by
  obtain ⟨pre, post, rfl⟩ := List.append_of_mem m
  have : pre ++ Event.registered host type cb :: post = (pre ++ [.registered host type cb]) ++ post := by simp
  rw [this]
  refine callback_stays post (fun h => hn (by simp [h])) ?_
  rw [callback_append_registered, if_pos ⟨rfl, rfl⟩]
  rfl

theorem follows {np : Ntop} {ifs : Nat → Option (List Ip)} {h : List Call} {d : D Ptrs} (n : Hist (devEnv np ifs) h d) (ha : KeepsAsking h)
    {pre post : List Event} {q cb : Nat} {b : Answer} (hl : d.c.log = pre ++ .answer q cb b :: post) {new : List (Bytes × Nat)}
    (hreg : (devAct np (pre ++ [.answer q cb b])).reg = new.map fun x => (x.1, x.2, if x.2 = 12 then 1 else 0)) :
    ∀ x ∈ new, (callback d.c.log x.1 x.2).isSome := by
  intro x hx
  obtain ⟨post', hp⟩ := n.gram.regs pre q cb b post hl
  have hreg' : ((devEnv np ifs).answer (pre ++ [.answer q cb b])).reg = _ := hreg
  rw [hreg'] at hp
  refine registered_stays (cb := if x.2 = 12 then 1 else 0) ?_ (never_ends (devEnv_stop np ifs) n ha _ _)
  rw [hl, hp]
  refine List.mem_append_right _ (List.mem_cons_of_mem _ (List.mem_append_left _ ?_))
  exact List.mem_map.mpr ⟨_, List.mem_map.mpr ⟨x, hx, rfl⟩, rfl⟩

/-- C81, what is heard of is followed: a pointer heard of is followed by questions for the services of this type or, if it was
an answer about a type, for SRV and TXT records of the service; the first SRV record of a service by questions for the
addresses of its host. -/
theorem C81_follows {np : Ntop} {ifs : Nat → Option (List Ip)} {h : List Call} {d : D Ptrs} (n : Hist (devEnv np ifs) h d) (ha : KeepsAsking h)
    {pre post : List Event} {q cb : Nat} {b : Answer} (hl : d.c.log = pre ++ .answer q cb b :: post) (h0 : b.ttl ≠ 0) {rd : Bytes}
    (hr : b.rdname = some rd) (hn : rd ≠ []) :
    (b.type = 12 → cb ≠ 1 → (callback d.c.log rd 12).isSome) ∧
    (b.type = 12 → cb = 1 → (callback d.c.log rd 33).isSome ∧ (callback d.c.log rd 16).isSome) ∧
    (b.type = 33 → (∀ q' cb' b', Event.answer q' cb' b' ∈ pre → b'.type = 33 → b'.name.take 255 = b.name → b'.ttl = 0) →
      (callback d.c.log rd 1).isSome ∧ (callback d.c.log rd 28).isSome) := by
  obtain ⟨new, hnew, hreg⟩ := devAct_at np pre q cb b
  have fol := follows n ha hl hreg
  cases hnew with
  | none hno =>
    obtain ⟨h1, h2⟩ := hno rd hr hn h0
    refine ⟨fun h => absurd h h1, fun h => absurd h h1, fun h hf => ?_⟩
    obtain ⟨i, mi, en, hh⟩ := h2 h
    obtain ⟨a, n', ⟨h3, q', cb', m⟩, h4, h5, _⟩ := ((tablesOf_from np pre).insts i mi).host hh
    exact absurd (hf q' cb' a m h4 (h5.trans en)) h3
  | type _ ht hr' _ hc =>
    rw [hr] at hr'
    cases hr'
    exact ⟨fun _ _ => fol (rd, 12) (by simp), fun _ h => absurd hc (by simp [h]), fun h => absurd (ht.symm.trans h) (by decide)⟩
  | inst _ ht hr' _ hc =>
    rw [hr] at hr'
    cases hr'
    exact ⟨fun _ h => absurd (by simpa using hc) h, fun _ _ => ⟨fol (rd, 33) (by simp), fol (rd, 16) (by simp)⟩,
      fun h => absurd (ht.symm.trans h) (by decide)⟩
  | host _ ht hr' _ =>
    rw [hr] at hr'
    cases hr'
    exact ⟨fun h => absurd (ht.symm.trans h) (by decide), fun h => absurd (ht.symm.trans h) (by decide), fun _ _ => ⟨fol (rd, 1) (by simp), fol (rd, 28) (by simp)⟩⟩

/-- The address is listed for the name, or eight others are. -/
def Lists (t : Tables) (name x : Bytes) : Prop := ∃ dev ∈ t.devices, dev.hostname = name ∧ (x ∈ dev.addrs ∨ 8 ≤ dev.addrs.length)

theorem withDev_keep {l : List Dev} {y : Dev} (h : y ∈ l) (n : Bytes) (f : Dev → Dev) : y ∈ withDev l n f ∨ (y.hostname = n ∧ f y ∈ withDev l n f) := by
  unfold withDev
  split
  · rename_i i hi
    obtain ⟨j, hj⟩ := List.mem_iff_getElem?.mp h
    by_cases e : i = j
    · subst e
      right
      obtain ⟨h1, h2, _⟩ := List.findIdx?_eq_some_iff_getElem.mp hi
      refine ⟨?_, List.mem_iff_getElem?.mpr ⟨i, by rw [List.getElem?_modify, hj]; simp⟩⟩
      rw [List.getElem?_eq_getElem h1] at hj
      cases hj
      simpa using h2
    · left
      exact List.mem_iff_getElem?.mpr ⟨j, by rw [List.getElem?_modify, hj]; simp [e]⟩
  · exact .inl (List.mem_cons_of_mem _ h)

theorem addAddr_grows (x : Bytes) (d : Dev) : (∀ y ∈ d.addrs, y ∈ (addAddr x d).addrs) ∧ d.addrs.length ≤ (addAddr x d).addrs.length := by
  unfold addAddr
  split
  · exact ⟨fun _ h => h, Nat.le_refl _⟩
  · split
    · exact ⟨fun _ h => List.mem_append_left _ h, by simp⟩
    · exact ⟨fun _ h => h, Nat.le_refl _⟩

theorem addAddr_has {x : Bytes} (hx : x.length ≤ 45) (d : Dev) : x ∈ (addAddr x d).addrs ∨ 8 ≤ (addAddr x d).addrs.length := by
  unfold addAddr
  split
  · rename_i h
    exact .inl (by simpa using h)
  · split
    · left
      have : CLib.strlcpy x 46 = x := List.take_of_length_le (by omega)
      simp [this]
    · right
      omega

theorem Lists.grow {l : List Dev} {name x n : Bytes} {y : Bytes} (h : ∃ dev ∈ l, dev.hostname = name ∧ (x ∈ dev.addrs ∨ 8 ≤ dev.addrs.length)) :
    ∃ dev ∈ withDev l n (addAddr y), dev.hostname = name ∧ (x ∈ dev.addrs ∨ 8 ≤ dev.addrs.length) := by
  obtain ⟨dev, hd, hn, hx⟩ := h
  rcases withDev_keep hd n (addAddr y) with hd | ⟨_, hd⟩
  · exact ⟨dev, hd, hn, hx⟩
  · obtain ⟨h1, h2⟩ := addAddr_grows y dev
    refine ⟨_, hd, by rw [addAddr_key]; exact hn, ?_⟩
    rcases hx with hx | hx
    · exact .inl (h1 x hx)
    · exact .inr (Nat.le_trans hx h2)

theorem Lists.ansDev {np : Ntop} {t : Tables} {name x : Bytes} (h : Lists t name x) (a : Answer × Bool) : Lists (ansDev np t a.1 a.2) name x := by
  unfold Lists
  rw [ansDev_devices]
  by_cases h1 : a.1.ttl ≠ 0 ∧ a.1.type = 1
  · rw [if_pos h1]
    exact Lists.grow h
  · rw [if_neg h1]
    by_cases h2 : a.1.ttl ≠ 0 ∧ a.1.type = 28
    · rw [if_pos h2]
      exact Lists.grow h
    · rw [if_neg h2]
      exact h

theorem Lists.run {np : Ntop} {name x : Bytes} : ∀ (as : List (Answer × Bool)) {t : Tables}, Lists t name x → Lists (run np as t) name x
  | [], _, h => h
  | a :: as, _, h => Lists.run as (h.ansDev a)

theorem withDev_has {l : List Dev} {n x : Bytes} (hx : x.length ≤ 45) (hn : n.length ≤ 255) :
    ∃ dev ∈ withDev l n (addAddr x), dev.hostname = n ∧ (x ∈ dev.addrs ∨ 8 ≤ dev.addrs.length) := by
  unfold withDev
  split
  · rename_i i hi
    obtain ⟨h1, h2, _⟩ := List.findIdx?_eq_some_iff_getElem.mp hi
    refine ⟨addAddr x l[i], List.mem_iff_getElem?.mpr ⟨i, by rw [List.getElem?_modify]; simp [h1]⟩, ?_, addAddr_has hx _⟩
    rw [addAddr_key]
    simpa using h2
  · refine ⟨_, List.mem_cons_self .., ?_, addAddr_has hx _⟩
    rw [addAddr_key]
    exact short_copy n hn

/-- An address told is listed ever after. -/
theorem told_listed {np : Ntop} {log pre post : List Event} {q cb : Nat} {b : Answer} (hl : log = pre ++ .answer q cb b :: post) (h0 : b.ttl ≠ 0)
    (hn : b.name.length ≤ 255) : (b.type = 1 → Lists (tablesOf np log) b.name (np.v4 b.ip)) ∧
      (b.type = 28 → Lists (tablesOf np log) b.name (np.v6 b.ip6)) := by
  have e : tablesOf np log = Mquery.run np (callsOf post) (Mquery.ansDev np (tablesOf np pre) b (cb == 1)) := by
    unfold tablesOf callsOf Mquery.run
    rw [hl, List.filterMap_append, List.foldl_append]
    rfl
  rw [e]
  constructor
  · intro ht
    refine Lists.run _ ?_
    unfold Lists
    rw [ansDev_devices (a := (b, cb == 1))]
    rw [if_pos ⟨h0, ht⟩]
    exact withDev_has (np.len4 _) hn
  · intro ht
    refine Lists.run _ ?_
    unfold Lists
    rw [ansDev_devices (a := (b, cb == 1))]
    rw [if_neg (by simp [ht]), if_pos ⟨h0, ht⟩]
    exact withDev_has (np.len6 _) hn

/-- C81, what is heard of is listed (partial): an address record in a response is listed ever after for the host of this name, if
it was asked for before the response arrived and was not known yet; a host has at most eight addresses.  Missing: records
that arrive before they are asked for, see `C81_missed_counterexample`. -/
theorem C81_shown_partial {np : Ntop} {ifs : Nat → Option (List Ip)} {h1 h2 : List Call} {d1 d : D Ptrs} {now : TV} {m : Msg} {src : Addr} {out : OpOut}
    (n1 : Hist (devEnv np ifs) h1 d1) (n2 : Calls (devEnv np ifs) d1 ((.recv now m src, out) :: h2) d)
    (ha : KeepsAsking (h1 ++ (.recv now m src, out) :: h2)) (hr : Response (devEnv np ifs) d1 m src) {r : Resource} (mr : r ∈ m.an)
    (h0 : r.ttl ≠ 0) (hn : r.name.length ≤ 255) (hq : (callback d1.c.log r.name r.type).isSome)
    (hl : ∀ b ∈ d1.c.listed r.name r.type, carries r b = false) :
    (∀ ip, r.type = 1 → r.known = .a ip → Lists (tablesOf np d.c.log) r.name (np.v4 (toVec 4 ip))) ∧
      (∀ ip, r.type = 28 → r.known = .aaaa ip → Lists (tablesOf np d.c.log) r.name (np.v6 (toVec 16 ip))) := by
  obtain ⟨d', n3, n4⟩ := Calls.split (pre := [(.recv now m src, out)]) n2
  obtain ⟨d'', evs, e, hlog, _, hT⟩ := hr.hears now
  have e3 := n3.single.2
  rw [e] at e3
  cases e3
  obtain ⟨evs2, hlog2⟩ := n4.log (n3.reach hr.reach)
  have hun := never_ends (devEnv_stop np ifs) (n1.calls n2) ha r.name r.type
  rw [hlog2, hlog] at hun
  have told : r.type ≠ 255 → ∃ pre q cb b post, d.c.log = pre ++ .answer q cb b :: post ∧ carries r b = true ∧ b.ttl ≠ 0 := by
    intro h255
    obtain ⟨pre, q, cb, b, post, e1, _, e2, e3⟩ := hT r.name r.type h255 hq (fun h => hun (by simp [h])) r mr rfl rfl h0 hl
    exact ⟨d1.c.log ++ pre, q, cb, b, post ++ evs2, by rw [hlog2, hlog, e1]; simp, e2, e3⟩
  have hw := hr.wf r mr
  constructor
  · intro ip ht hk
    obtain ⟨pre, q, cb, b, post, e1, e2, e3⟩ := told (by omega)
    obtain ⟨en, et⟩ := carries_name e2
    obtain ⟨ip', hk', hi⟩ := carries_a e2 hw (et.trans ht)
    rw [hk] at hk'
    cases hk'
    have := (told_listed (np := np) e1 e3 (by rw [en]; exact hn)).1 (et.trans ht)
    rw [en, hi] at this
    exact this
  · intro ip ht hk
    obtain ⟨pre, q, cb, b, post, e1, e2, e3⟩ := told (by omega)
    obtain ⟨en, et⟩ := carries_name e2
    obtain ⟨ip', hk', hi⟩ := carries_aaaa e2 hw (et.trans ht)
    rw [hk] at hk'
    cases hk'
    have := (told_listed (np := np) e1 e3 (by rw [en]; exact hn)).2 (et.trans ht)
    rw [en, hi] at this
    exact this

/-! ### Examples -/

namespace Sample

open Mdns.Sample

theorem trace_was {env : Env} (hk : env.KeepOnExpiry) : ∀ (ops : List Op) {d : D Ptrs}, safeRunB env d ops = true →
    ∀ (h : List Call) (d0 : D Ptrs), Calls env d0 h d → Calls env d0 (h ++ (trace env ops d).1) (trace env ops d).2
  | [], d, _, h, d0, n => by simpa [trace] using n
  | o :: rest, d, hb, h, d0, n => by
    unfold safeRunB at hb
    rw [Bool.and_eq_true] at hb
    unfold trace
    cases e : Mdns.step env o d with
    | ok p =>
      have h2 := hb.2
      rw [e] at h2
      have := trace_was hk rest h2 _ _ (Calls.snoc n (opSafeB_sound hk hb.1) e)
      simpa using this
    | ub => rw [e] at hb; cases hb.2
    | hang => rw [e] at hb; cases hb.2

theorem calls_in {env : Env} (hk : env.KeepOnExpiry) {ops : List Op} {d : D Ptrs} (h : safeRunB env d ops = true) :
    Calls env d (trace env ops d).1 (trace env ops d).2 := by
  simpa using trace_was hk ops h [] d .nil

/-- A record as it stands in a packet, with a lifetime of 120 seconds. -/
def wire (name : Bytes) (type : UInt8) (data : Bytes) : Bytes :=
  name ++ [0, type, 0, 1, 0, 0, 0, 120, 0, UInt8.ofNat data.length] ++ data

/-- The names `h.`, `t.`, `i.t.` and that of the list of services, in packets. -/
abbrev wireH : Bytes := [1, 0x68, 0]
abbrev wireT : Bytes := [1, 0x74, 0]
abbrev wireI : Bytes := [1, 0x69, 1, 0x74, 0]
abbrev wireDisco : Bytes :=
  [9, 0x5f, 0x73, 0x65, 0x72, 0x76, 0x69, 0x63, 0x65, 0x73, 7, 0x5f, 0x64, 0x6e, 0x73, 0x2d, 0x73, 0x64,
   4, 0x5f, 0x75, 0x64, 0x70, 5, 0x6c, 0x6f, 0x63, 0x61, 0x6c, 0]

/-- The records of a device: the list of services has `t.`, of which `i.t.` is one, on port 80 of `h.`, with address 10.0.0.1 -/
def recDisco : Bytes := wire wireDisco 12 wireT
def recType : Bytes := wire wireT 12 wireI
def recSrv : Bytes := wire wireI 33 ([0, 0, 0, 0, 0, 80] ++ wireH)
def recAddr : Bytes := wire wireH 1 [10, 0, 0, 1]

/-- A response with these records. -/
def response (recs : List Bytes) : Bytes := [0, 0, 0x84, 0, 0, 0, 0, UInt8.ofNat recs.length, 0, 0, 0, 0] ++ recs.flatten

/-- The datagram that arrives in second `s`. -/
def arrives (s : Nat) (recs : List Bytes) : Nat × Datagram := (s, ⟨⟨s, 0⟩, response recs, ⟨.v4 #v[10, 0, 0, 1], 5353⟩⟩)

/-- `mquery -T -D` and the devices it lists. -/
def lists (rs : List Round) : Option (Verdict × List Dev) :=
  match program (devEnv sampleNtop fun _ => some []) .inet discoName 12 { terminate := true } 100 20 rs blank (newD 1 1000 (at_ 100)) with
  | .ok ((v, _, _), d) => some (v, (tablesOf sampleNtop d.c.log).devices)
  | _ => none

/-- The host `h.` and the device listed for it. -/
abbrev nameH : Bytes := [0x68, 0x2E]
def devH : Dev := ⟨nameH, [sampleNtop.v4 #v[10, 0, 0, 1]]⟩

set_option maxRecDepth 100000 in
/-- C81: a device is listed if its records arrive one after another as they are asked for. -/
example : ∃ v, lists [rd 100 100, rd 100 101 [arrives 101 [recDisco, recType, recSrv, recAddr]], rd 101 103] = some (v, [devH]) := by
  exact ⟨.done, by decide +kernel⟩

/-- The world of a sample `mquery -D`. -/
abbrev world : Env := devEnv sampleNtop fun _ => some []

/-- The names `t.` and `i.t.`. -/
abbrev nameT : Bytes := [0x74, 0x2E]
abbrev nameI : Bytes := [0x69, 0x2E, 0x74, 0x2E]

/-- The records of the device, as parsed. -/
def pDisco : Resource := { name := discoName, type := 12, cls := 1, ttl := 120, rdata := wireT, known := .name nameT }
def pType : Resource := { name := nameT, type := 12, cls := 1, ttl := 120, rdata := wireI, known := .name nameI }
def pSrv : Resource := { name := nameI, type := 33, cls := 1, ttl := 120, rdata := [], known := .srv 0 0 80 nameH }
def pAddr : Resource := { name := nameH, type := 1, cls := 1, ttl := 120, rdata := [10, 0, 0, 1], known := .a [10, 0, 0, 1] }

/-- `mquery -D` hears of a service and its host. -/
def hearing : List Call × D Ptrs := trace world [.query discoName 12 (some 0), .recv (at_ 101) (telling [pDisco, pType, pSrv]) other] (newD 1 1000 (at_ 100))

theorem hearing_calls : Calls world (newD 1 1000 (at_ 100)) hearing.1 hearing.2 := calls_in (devEnv_keeps _ _) (by decide +kernel)

/-- Without callbacks that end queries. -/
theorem keeps_of {h : List Call} (hb : (h.all fun c => match c.1 with | .query _ _ none => false | _ => true) = true) : KeepsAsking h := by
  intro c mc n t e
  have := List.all_eq_true.mp hb c mc
  rw [e] at this
  cases this

/-- C81: all three cases of `C81_follows` occur. -/
example : KeepsAsking hearing.1 ∧ (hearing.2.c.log.filterMap fun | .answer _ cb b => some (b.type, cb, b.rdname) | _ => none) =
      [(12, 0, some nameT), (12, 1, some nameI), (33, 0, some nameH)] ∧
    (callback hearing.2.c.log nameT 12).isSome ∧ (callback hearing.2.c.log nameI 33).isSome ∧ (callback hearing.2.c.log nameH 28).isSome :=
  ⟨keeps_of (by decide +kernel), by decide +kernel, by decide +kernel, by decide +kernel, by decide +kernel⟩

/-- C81: then it hears of the address. -/
def hearing2 : List Call × D Ptrs := trace world [.recv (at_ 102) (telling [pAddr]) other] hearing.2

example : ∃ h1 h2 d1 d now m src out, Hist world h1 d1 ∧ Calls world d1 ((.recv now m src, out) :: h2) d ∧
    KeepsAsking (h1 ++ (.recv now m src, out) :: h2) ∧ Response world d1 m src ∧ pAddr ∈ m.an ∧
    (callback d1.c.log pAddr.name pAddr.type).isSome ∧ (∀ b ∈ d1.c.listed pAddr.name pAddr.type, carries pAddr b = false) := by
  have n1 := hearing_calls
  have n2 : Calls world hearing.2 hearing2.1 hearing2.2 := calls_in (devEnv_keeps _ _) (by decide +kernel)
  have e : hearing2.1 = [(.recv (at_ 102) (telling [pAddr]) other, .unit)] := by
    unfold hearing2
    have : (trace world [.recv (at_ 102) (telling [pAddr]) other] hearing.2).1.map (·.2) = [.unit] := by decide +kernel
    unfold trace at this ⊢
    split at this
    · rename_i a d' h
      have : a = .unit := by simpa [trace] using this
      rw [this]
      rfl
    · cases this
  rw [e] at n2
  refine ⟨_, [], _, _, at_ 102, telling [pAddr], other, .unit, n1.hist, n2, ?_, ⟨n1.reach (.new ..), by decide +kernel, rfl, ?_, ?_⟩,
    by simp [telling], by decide +kernel, by decide +kernel⟩
  · intro c mc
    rcases List.mem_append.mp mc with mc | mc
    · exact keeps_of (by decide +kernel) c mc
    · cases List.mem_singleton.mp mc
      intro n t h
      cases h
  · have ha : hearing.2.c.addr ≠ #v[10, 0, 0, 9] := by decide +kernel
    exact ⟨fun a e => (by cases e; exact ha.symm), fun a e => (by cases e), fun n l e => (by cases e; simp)⟩
  · intro r mr
    cases List.mem_singleton.mp mr
    constructor <;> simp [pAddr]

end Sample

open Mdns.Mquery.Sample Mdns.Sample

set_option maxRecDepth 100000 in
/-- C81 is false in full: `mquery -D` does not list a device whose records arrive in one packet with those that point to others
last, the order in which this daemon announces them, however often they arrive. -/
theorem C81_missed_counterexample : lists [rd 100 100, rd 100 101 [arrives 101 [recAddr, recSrv, recType, recDisco]],
    rd 101 102 [arrives 102 [recAddr, recSrv, recType, recDisco]], rd 102 103 [arrives 103 [recAddr, recSrv, recType, recDisco]], rd 103 105] =
    some (.done, []) := by
  decide +kernel

end Mdns.Mquery
