import Verif.Lemmas.Clock
import Verif.Props.Memory

/-!
# C29-C31, C33-C35, C57: the life of a record

Every theorem is about all histories of safe calls (`Hist`, `Calls`), with any number of
records, queries and received packets.
-/

namespace Mdns

/-! ### Specification -/

/-- The daemon is the result of calls that were all made two seconds before `T`, every record
fits in an empty packet, and no `_services._dns-sd._udp.local.` question waits for its answer. -/
structure Quieted (env : Env) (h : List Call) (T : TV) (d : D Ptrs) : Prop where
  calls : ∃ cls frame now, now.usec < 1000000 ∧ 2000000 ≤ tvdiff now T ∧ Calls env (newD cls frame now) h d
  past : ∀ k ∈ h, Call.before T k
  plain : d.c.disco = false
  fits : FitsAlone d.c

/-- Every entry of the record in the packet a call makes has the given lifetime. -/
def EntriesTtl (r ttl : Nat) : Call → Prop
  | (_, .sent _ m _) => ∀ (i : Nat) s, m.tags[i]? = some (s, r) → ∃ e : PEntry, (entries m.ops)[i]? = some e ∧ e.sec = s ∧ e.ttl = ttl
  | _ => True

/-! ### Histories -/

theorem Calls.hist {env : Env} {cls frame : Nat} {now : TV} {h : List Call} {d : D Ptrs}
    (n : Calls env (newD cls frame now) h d) : Hist env h d := by
  have := (Hist.new (env := env) cls frame now).calls n
  simpa using this

theorem Calls.split {env : Env} {d d' : D Ptrs} {pre post : List Call} (n : Calls env d (pre ++ post) d') :
    ∃ d1, Calls env d pre d1 ∧ Calls env d1 post d' := by
  generalize e : pre ++ post = h at n
  induction n generalizing post with
  | nil =>
    obtain ⟨rfl, rfl⟩ := List.append_eq_nil_iff.mp e
    exact ⟨_, .nil, .nil⟩
  | @snoc h1 d1 d' o a n hs e1 ih =>
    rcases List.eq_nil_or_concat post with rfl | ⟨post', k, rfl⟩
    · rw [List.append_nil] at e
      subst e
      exact ⟨_, .snoc n hs e1, .nil⟩
    · rw [List.concat_eq_append, ← List.append_assoc] at e
      obtain ⟨e2, e3⟩ := List.append_inj' e rfl
      subst e2
      cases e3
      obtain ⟨d1, n1, n2⟩ := ih rfl
      exact ⟨d1, n1, by rw [List.concat_eq_append]; exact .snoc n2 hs e1⟩

theorem Calls.single {env : Env} {d d' : D Ptrs} {o : Op} {a : OpOut} (n : Calls env d [(o, a)] d') :
    OpSafe env d.c d.q.walk o ∧ Mdns.step env o d = .ok (a, d') := by
  generalize e : [(o, a)] = h at n
  cases n with
  | nil => cases e
  | snoc n hs e1 =>
    obtain ⟨e2, e3⟩ := List.append_inj' (s₁ := []) e rfl
    subst e2
    cases e3
    generalize e : ([] : List Call) = h at n
    cases n with
    | nil => exact ⟨hs, e1⟩
    | snoc => simp at e

theorem Calls.at {env : Env} {d d' : D Ptrs} {pre post : List Call} {o : Op} {a : OpOut}
    (n : Calls env d (pre ++ (o, a) :: post) d') :
    ∃ d1 d2, Calls env d pre d1 ∧ OpSafe env d1.c d1.q.walk o ∧ Mdns.step env o d1 = .ok (a, d2) ∧ Calls env d2 post d' := by
  obtain ⟨d1, n1, n2⟩ := n.split
  obtain ⟨d2, n3, n4⟩ := Calls.split (pre := [(o, a)]) n2
  exact ⟨d1, d2, n1, n3.single.1, n3.single.2, n4⟩

theorem Calls.append {env : Env} {d d' d'' : D Ptrs} {h h' : List Call} (n : Calls env d h d') (n' : Calls env d' h' d'') :
    Calls env d (h ++ h') d'' := by
  induction n' with
  | nil => simpa using n
  | snoc _ hs e ih => rw [← List.append_assoc]; exact .snoc ih hs e

theorem Quieted.hist {env : Env} {h : List Call} {T : TV} {d : D Ptrs} (k : Quieted env h T d) : Hist env h d := by
  obtain ⟨cls, frame, now, _, _, n⟩ := k.calls
  exact n.hist

theorem tvdiff_trans {a b t : TV} (h : tvdiff a t ≤ 0) (h' : 0 ≤ tvdiff a b) : tvdiff b t ≤ 0 := by
  unfold tvdiff at *
  omega

theorem Quieted.rested {env : Env} {h h' : List Call} {T : TV} {d : D Ptrs} (k : Quieted env h T d) (hp : PacedFrom T h') :
    ∀ k ∈ h', ∀ t, k.1 = .send t → Rested d.c t := by
  obtain ⟨cls, frame, now, hv, h0, n⟩ := k.calls
  intro k' m t e
  obtain ⟨h1, h2, h3⟩ := (n.within hv h0 k.past).rested
  have := hp.2 k' m t e
  exact ⟨tvdiff_trans h1 this, tvdiff_trans h2 this, tvdiff_trans h3 this⟩

/-! ### What is in packets -/

/-- The entries of a packet are those of the records in its tags, as they were when the packet
was made; a packet without tags has questions and entries of the cache only. -/
theorem packet_entries {env : Env} {d d' : D Ptrs} (h : Reach env d) {now : TV} {ret : Nat} {m : Out} {to : Addr}
    (hs : OpSafe env d.c d.q.walk (.send now)) (e : Mdns.step env (.send now) d = .ok (.sent ret m to, d')) :
    m.tags = [] ∨ (entries m.ops = m.tags.map (d.c.entry (to.port == 5353)) ∧ ∀ t ∈ m.tags, ∃ x, d.c.recs t.2 = some x) := by
  have hd := h.did hs e
  cases hd with
  | send n =>
    cases n.kind with
    | answers as xs ht ha hr hm hq hto =>
      right
      rw [hto, show ((mcast _).port == 5353) = true by cases d.c.family <;> rfl]
      exact hm
    | probes rs hn ht hr0 hr hm hto =>
      right
      rw [hto, show ((mcast _).port == 5353) = true by cases d.c.family <;> rfl]
      exact hm
    | questions ht => exact .inl ht
    | unicast u us xs hu ht hr hm hto hid =>
      right
      have h5 : u.to.port ≠ 5353 := h.uni u (by rw [show d.c.uanswers = u :: us from hu]; simp)
      rw [hto, show (u.to.port == 5353) = false by simpa using h5]
      exact hm

theorem entriesTtl {env : Env} {d d' : D Ptrs} (h : Reach env d) {o : Op} {a : OpOut}
    (hs : OpSafe env d.c d.q.walk o) (e : Mdns.step env o d = .ok (a, d')) {r ttl : Nat}
    (hx : ∀ x, d.c.recs r = some x → x.rr.ttl = ttl) : EntriesTtl r ttl (o, a) := by
  have hd := h.did hs e
  cases a with
  | sent ret m to =>
    cases o with
    | send now =>
      intro i s ht
      have hm : (s, r) ∈ m.tags := List.mem_of_getElem? ht
      rcases packet_entries h hs e with e1 | ⟨e1, _⟩
      · rw [e1] at hm
        cases hm
      · rw [e1, List.getElem?_map, ht]
        refine ⟨_, rfl, ?_⟩
        cases hr : d.c.recs r with
        | some x =>
          have := hx x hr
          simp only [Core.entry, hr]
          exact ⟨trivial, this⟩
        | none =>
          exfalso
          have hsz : r < d.lists.size ∨ d.lists.size ≤ r := Nat.lt_or_ge ..
          obtain ⟨ls, hst, hp, hl⟩ := (hd.run h.inv h.uni).steps r
          have hn : Lab.new ∉ ls := by
            intro m
            have := hl _ m
            rcases this with h | ⟨_, _, h, _⟩ <;> cases h
          obtain ⟨e2, _⟩ := hst.none (view_none h.inv.rinv hr) hn
          rw [e2] at hp
          have := mem_tagsOf.mpr hm
          rw [show (OpOut.sent ret m to).tags = m.tags from rfl] at hp
          rw [← hp] at this
          cases this
    | _ => cases hd
  | _ => trivial

/-! ### C57 -/

/-- C57: whatever was called before, when packets are made every two seconds then after finitely
many of them nothing waits to be sent: all probes, announcements, responses, unicast answers and
goodbyes are out.  The number is at most nine per record made so far, and one per unicast answer. -/
theorem C57_settles {env : Env} {h : List Call} {T : TV} {d : D Ptrs} (k : Quieted env h T d) (up : d.c.shutdown = false) :
    ∀ h' d', Calls env d h' d' → PacedFrom T h' → d.c.uanswers.length + 9 * d.q.size ≤ h'.length →
      d'.c.uanswers = [] ∧ ∀ w, d'.q.walk w = [] := by
  intro h' d' n hp hl
  exact n.settle k.hist.reach hp.1 (k.rested hp) up k.plain k.fits (Nat.le_trans (load_le _ _) hl)

/-! ### C29, C30 -/

/-- C29, the number of probes: a record made by `mdnsd_unique` is never in more than three
packets as a probe, and when it is put in an answer for everyone (announcements included) it has
been in exactly three.  Missing: the time between probes, see `C29_spacing_partial`. -/
theorem C29_three_probes_partial {env : Env} {h : List Call} {d : D Ptrs} (n : Hist env h d) {r : Nat} :
    shown .ns r h ≤ 3 ∧
      ∀ o a d', OpSafe env d.c d.q.walk o → Mdns.step env o d = .ok (a, d') → MadeUnique r h → Call.shows .an r (o, a) →
        shown .ns r h = 3 :=
  ⟨(n.past r).le, fun _ _ _ hs e hu hsh => n.answered hs e hu hsh⟩

/-- C29, probing ends: when packets are made every two seconds a record made by `mdnsd_unique`
that is not withdrawn gets all of its three probes. -/
theorem C29_probing_ends {env : Env} {h : List Call} {T : TV} {d : D Ptrs} (k : Quieted env h T d) (up : d.c.shutdown = false)
    {r : Nat} (hu : MadeUnique r h) :
    ∀ h' d', Calls env d h' d' → PacedFrom T h' → d.c.uanswers.length + 9 * d.q.size ≤ h'.length →
      (d'.c.recs r).isSome → shown .ns r (h ++ h') = 3 := by
  intro h' d' n hp hl hr
  have hi := C57_settles k up h' d' n hp hl
  have hh := k.hist.calls n
  have p := hh.past r
  have hu' : MadeUnique r (h ++ h') := by
    obtain ⟨a, b, c, d, m⟩ := hu
    exact ⟨a, b, c, d, List.mem_append_left _ m⟩
  cases hx : d'.c.recs r with
  | none => rw [hx] at hr; cases hr
  | some x =>
    have h1 := p.unq hu' x hx
    obtain ⟨h2, h3, h4⟩ := p.probed x hx h1
    have h5 := (hh.reach.inv.rinv.probing r x hx)
    have : r ∉ d'.lists.q .probing := by rw [show d'.lists.q .probing = [] from hi.2 _]; simp
    have h6 : ¬ x.unique < 5 := fun h => this (h5.mpr ⟨h1, h⟩)
    exact h4 (by omega)

/-- C29, the time between probes: two packets with probes are at least 250 ms apart if
`mdnsd_unique` is not called between them.  Missing: with such a call in between it is false, see
`C29_spacing_counterexample`. -/
theorem C29_spacing_partial {env : Env} {pre mid : List Call} {t1 t2 : TV} {a1 a2 : OpOut} {d : D Ptrs}
    (n : Hist env (pre ++ (.send t1, a1) :: (mid ++ [(.send t2, a2)])) d) {r1 r2 : Nat} (h1 : (.ns, r1) ∈ a1.tags)
    (h2 : (.ns, r2) ∈ a2.tags) (hm : ∀ k ∈ mid, ¬ k.1.isUnique) : 250000 ≤ tvdiff t1 t2 := by
  obtain ⟨d1, d2, n1, hs1, e1, n2, cs⟩ := n.at
  obtain ⟨d3, d4, n3, hs2, e2, _⟩ := cs.at
  have hd := n1.reach.did hs1 e1
  have hp : d2.c.probe = ⟨t1.sec, t1.usec + 250000⟩ := by
    cases hd with
    | send ho =>
      rcases ho.probe with ⟨_, h, _⟩ | ⟨h, _⟩
      · exact h
      · exact absurd h1 (h r1)
  exact n3.probeGap n2.reach hp hm hs2 e2 h2

/-- C30, for answers to everyone: a record made by `mdnsd_unique` is not in the answer section
of a packet to the multicast group before its three probes.  Missing: it may be in the
additional section and in unicast answers, see the counterexamples. -/
theorem C30_no_early_answers_partial {env : Env} {h : List Call} {d : D Ptrs} (n : Hist env h d) {r : Nat}
    (hu : MadeUnique r h) (hp : shown .ns r h < 3) {o : Op} {a : OpOut} {d' : D Ptrs} (hs : OpSafe env d.c d.q.walk o)
    (e : Mdns.step env o d = .ok (a, d')) : Call.shows .an r (o, a) = false := by
  cases hc : Call.shows .an r (o, a) with
  | false => rfl
  | true =>
    have := n.answered hs e hu hc
    omega

/-! ### C31 -/

theorem leaves_lab {h : List Call} {r : Nat} (hl : ∀ k ∈ h, k.1.leaves r = true) :
    ∀ k ∈ h, ∀ m b, b ≠ .new → k.1.may m k.2 r b → b.sends := by
  intro k hk m b hn hb
  have hl := hl k hk
  obtain ⟨o, a⟩ := k
  cases o <;> simp only [Op.leaves, bne_iff_ne, ne_eq, Bool.false_eq_true] at hl
  case send => exact sendLab.sends (r := r) hb
  case shared => exact absurd hb.1 hn
  case unique => exact absurd hb.1 hn
  all_goals first | exact hb.elim | exact absurd hb.1.symm hl

/-- After at most four announcements. -/
def AtMostFour (n : Nat) (v : View) : Prop :=
  n ≤ 4 ∧ ∀ x, v.x = some x → (x.Probing ∧ n = 0) ∨ (¬ x.Probing ∧ v.at_ = some .publish ∧ x.tries = n ∧ n < 4) ∨
    (¬ x.Probing ∧ v.at_ = none)

theorem RStep.atMostFour {u v : View} {ls : List Lab} (h : RStep u ls v) (hl : ∀ a ∈ ls, a.sends) (hp : Placed u) {n : Nat}
    (q : AtMostFour n u) : AtMostFour (n + anns ls) v := by
  have same : ∀ {x x' : Rec} {p : Option W}, Keep x x' → AtMostFour n ⟨some x, p⟩ → AtMostFour n ⟨some x', p⟩ := by
    rintro x x' p h ⟨h1, h2⟩
    refine ⟨h1, fun y hy => ?_⟩
    cases hy
    have := h2 x rfl
    unfold Rec.Probing at *
    rw [h.unique, h.tries]
    exact this
  have noans : ∀ {x : Rec} {w : W}, w.answers → AtMostFour n ⟨some x, some w⟩ → Placed ⟨some x, some w⟩ → False := by
    rintro x w hw ⟨h1, h2⟩ hp
    have := hp x rfl
    rcases h2 x rfl with h2 | h2 | h2
    · have := this.mp h2.1
      rcases hw with rfl | rfl <;> simp at this
    · rcases hw with rfl | rfl <;> simp at h2
    · simp at h2
  have pub : ∀ {x : Rec}, AtMostFour n ⟨some x, some .publish⟩ → Placed ⟨some x, some .publish⟩ →
      ¬ x.Probing ∧ x.tries = n ∧ n < 4 := by
    rintro x ⟨h1, h2⟩ hp
    have := hp x rfl
    rcases h2 x rfl with h2 | h2 | h2
    · have := this.mp h2.1
      simp at this
    · exact ⟨h2.1, h2.2.2⟩
    · simp at h2
  cases h with
  | touch h => exact same h q
  | skip hw => exact (noans hw q hp).elim
  | shared => exact absurd (hl .new (by simp)) (by simp [Lab.sends])
  | unique => exact absurd (hl .new (by simp)) (by simp [Lab.sends])
  | edit => exact absurd (hl .set (by simp)) (by simp [Lab.sends])
  | publish => exact absurd (hl .set (by simp)) (by simp [Lab.sends])
  | queue => exact absurd (hl .ask (by simp)) (by simp [Lab.sends])
  | bye => exact absurd (hl .bye (by simp)) (by simp [Lab.sends])
  | drop => exact absurd (hl .free (by simp)) (by simp [Lab.sends])
  | sent hw => exact (noans hw q hp).elim
  | @sentBye x w hw ht =>
    cases w with
    | publish => exact ⟨by have := pub q hp; simp [anns, Lab.isAn]; omega, fun y hy => by cases hy⟩
    | probing => exact absurd rfl hw
    | now => exact (noans (w := .now) (.inl rfl) q hp).elim
    | pause => exact (noans (w := .pause) (.inr rfl) q hp).elim
  | announce ht h4 hr hu htr =>
    have := pub q hp
    refine ⟨by simp [anns, Lab.isAn]; omega, fun y hy => ?_⟩
    cases hy
    right; left
    unfold Rec.Probing at *
    rw [hu, htr]
    simp [anns, Lab.isAn]
    omega
  | announceLast ht h4 hr hu htr =>
    have := pub q hp
    refine ⟨by simp [anns, Lab.isAn]; omega, fun y hy => ?_⟩
    cases hy
    right; right
    unfold Rec.Probing at *
    rw [hu]
    exact ⟨this.1, rfl⟩
  | @verify x x' hu hr hu' ht =>
    have hpr := (hp _ rfl).mpr rfl
    obtain ⟨h1, h2⟩ := q
    rcases h2 x rfl with h2 | h2 | h2
    · refine ⟨by simp [anns, Lab.isAn]; omega, fun y hy => ?_⟩
      cases hy
      right; left
      unfold Rec.Probing
      rw [hu', ht]
      simp [anns, Lab.isAn]
      omega
    · exact absurd hpr h2.1
    · exact absurd hpr h2.1
  | @propose x x' hu hr hu' ht =>
    have hpr := (hp _ rfl).mpr rfl
    obtain ⟨h1, h2⟩ := q
    rcases h2 x rfl with h2 | h2 | h2
    · refine ⟨by simp [anns, Lab.isAn]; omega, fun y hy => ?_⟩
      cases hy
      left
      unfold Rec.Probing
      rw [hu']
      simp [anns, Lab.isAn]
      omega
    · exact absurd hpr h2.1
    · exact absurd hpr h2.1
  | unicast h => exact same h q
  | extra => exact q

/-- C31, at most four: after it was set, a record is put in at most four answers for everyone by
calls that are not about it. -/
theorem C31_at_most_four {env : Env} {pre mid : List Call} {o : Op} {a : OpOut} {r : Nat} {d : D Ptrs}
    (n : Hist env (pre ++ (o, a) :: mid) d) (ho : o.sets r = true) (hl : ∀ k ∈ mid, k.1.leaves r = true) :
    shown .an r mid ≤ 4 := by
  obtain ⟨d1, d2, n1, hs, e, n2, cs⟩ := n.at
  obtain ⟨x0, x, hx0, hx, h3, h4, h5⟩ := (n1.reach.did hs e).set n1.reach.inv.rinv ho
  have hsz : r < d2.lists.size := n2.reach.inv.rinv.bound r (by rw [hx]; rfl)
  refine (cs.keeps n2.reach hsz (Q := AtMostFour) (A := Lab.sends) (fun h ha hp q => h.atMostFour ha hp q)
    (leaves_lab hl) ⟨Nat.zero_le _, fun y hy => ?_⟩).1.1
  have hy : d2.c.recs r = some y := hy
  rw [hx] at hy
  cases hy
  have e : x.Probing ↔ x0.Probing := by unfold Rec.Probing; rw [h4]
  rcases h5 with h5 | ⟨h5, h6, h7⟩
  · exact .inl ⟨e.mpr h5, rfl⟩
  · exact .inr (.inl ⟨fun h => h5 (e.mp h), h6, h7, by omega⟩)

theorem RStep.zeroTtl {u v : View} {ls : List Lab} (h : RStep u ls v) (hl : .new ∉ ls) (q : ∀ x, u.x = some x → x.rr.ttl = 0) :
    ∀ x, v.x = some x → x.rr.ttl = 0 := by
  cases h with
  | touch h => intro y hy; cases hy; rw [h.rr]; exact q _ rfl
  | skip => intro y hy; cases hy; exact q _ rfl
  | shared => simp at hl
  | unique => simp at hl
  | edit _ h => intro y hy; cases hy; rw [h.ttl]; exact q _ rfl
  | publish _ h => intro y hy; cases hy; rw [h.ttl]; exact q _ rfl
  | queue => intro y hy; cases hy; exact q _ rfl
  | bye => intro y hy; cases hy; rfl
  | drop => intro y hy; cases hy
  | sent _ _ h => intro y hy; cases hy; rw [h.rr]; exact q _ rfl
  | sentBye => intro y hy; cases hy
  | announce _ _ hr => intro y hy; cases hy; rw [hr]; exact q _ rfl
  | announceLast _ _ hr => intro y hy; cases hy; rw [hr]; exact q _ rfl
  | verify _ hr => intro y hy; cases hy; rw [hr]; exact q _ rfl
  | propose _ hr => intro y hy; cases hy; rw [hr]; exact q _ rfl
  | unicast h => intro y hy; cases hy; rw [h.rr]; exact q _ rfl
  | extra => intro y hy; cases hy; exact q _ rfl

/-- A record that is being withdrawn stays so. -/
theorem Calls.zeroTtl {env : Env} {d d' : D Ptrs} {h : List Call} (n : Calls env d h d') (hr : Reach env d) {r : Nat} {x : Rec}
    (hx : d.c.recs r = some x) (h0 : x.rr.ttl = 0) : ∀ x, d'.c.recs r = some x → x.rr.ttl = 0 := by
  refine (n.keeps hr (hr.inv.rinv.bound r (by rw [hx]; rfl)) (A := fun b => b ≠ .new)
    (Q := fun _ v => ∀ x, v.x = some x → x.rr.ttl = 0) (fun h ha _ q => h.zeroTtl (fun m => ha _ m rfl) q)
    (fun _ _ _ _ hb _ => hb) fun y hy => ?_).1
  have hy : d.c.recs r = some y := hy
  rw [hx] at hy
  cases hy
  exact h0

/-- C31, the number of announcements: a record that was set is put in exactly four answers for
everyone, when only calls that are not about it follow and then packets are made every two
seconds, however many.  Missing: the time between the announcements, see `C31_spacing_partial`. -/
theorem C31_four_announcements_partial {env : Env} {pre mid : List Call} {o : Op} {a : OpOut} {r : Nat} {T : TV}
    {d : D Ptrs} (k : Quieted env (pre ++ (o, a) :: mid) T d) (up : d.c.shutdown = false) (ho : o.sets r = true)
    (hl : ∀ k ∈ mid, k.1.leaves r = true) (ht : ∃ x, d.c.recs r = some x ∧ x.rr.ttl ≠ 0) :
    ∀ h' d', Calls env d h' d' → PacedFrom T h' → d.c.uanswers.length + 9 * d.q.size ≤ h'.length →
      shown .an r (mid ++ h') = 4 := by
  intro h' d' n hp hle
  obtain ⟨d1, d2, n1, hs, e, n2, cs⟩ := k.hist.at
  have hd := n1.reach.did hs e
  obtain ⟨x0, x2, hx0, hx2, _, _, _⟩ := hd.set n1.reach.inv.rinv ho
  have hsz : r < d2.lists.size := n2.reach.inv.rinv.bound r (by rw [hx2]; rfl)
  have h2 : x2.rr.ttl ≠ 0 := by
    intro h0
    obtain ⟨x, hx, hne⟩ := ht
    exact hne (cs.zeroTtl n2.reach hx2 h0 x hx)
  have ha := hd.ann n1.reach.inv.rinv ho hx2 h2
  have hidle := C57_settles k up h' d' n hp hle
  obtain ⟨⟨x, hx, h1, h2⟩, _⟩ := (cs.append n).keeps n2.reach hsz (Q := Ann) (A := Lab.sends)
    (fun h ha hp q => h.ann ha hp q) (fun k hk => by
      rcases List.mem_append.mp hk with hk | hk
      · exact leaves_lab hl k hk
      · exact sends_lab hp.1.1 k hk) ha
  have i := (n.reach k.hist.reach).inv.rinv
  rcases h2 with ⟨h2, _⟩ | ⟨_, h2, _⟩ | ⟨_, _, h2⟩
  · have := (i.probing r x hx).mpr h2
    rw [show d'.lists.q .probing = [] from hidle.2 _] at this
    cases this
  · have := (mem_place i _).mpr h2
    rw [show d'.lists.q .publish = [] from hidle.2 _] at this
    cases this
  · exact h2

/-- After `n` answers for everyone, at least: the first four are announcements. -/
def FirstFour (n : Nat) (v : View) : Prop :=
  ∃ x, v.x = some x ∧ x.rr.ttl ≠ 0 ∧ ((x.Probing ∧ n = 0) ∨ (¬ x.Probing ∧ v.at_ = some .publish ∧ x.tries = n) ∨
    (¬ x.Probing ∧ v.at_ ≠ some .publish ∧ 4 ≤ x.tries ∧ 4 ≤ n))

theorem RStep.firstFour {u v : View} {ls : List Lab} (h : RStep u ls v) (hl : ∀ b ∈ ls, b.sends ∨ b = .ask) (hp : Placed u)
    {n : Nat} (q : FirstFour n u) : FirstFour (n + anns ls) v := by
  have same : ∀ {x x' : Rec} {p : Option W}, Keep x x' → FirstFour n ⟨some x, p⟩ → FirstFour n ⟨some x', p⟩ := by
    rintro x x' p h ⟨y, hy, h1, h2⟩
    cases hy
    refine ⟨_, rfl, by rw [h.rr]; exact h1, ?_⟩
    unfold Rec.Probing at *
    rw [h.unique, h.tries]
    exact h2
  have ans : ∀ {x : Rec} {w : W}, w.answers → FirstFour n ⟨some x, some w⟩ → Placed ⟨some x, some w⟩ →
      x.rr.ttl ≠ 0 ∧ ¬ x.Probing ∧ 4 ≤ x.tries ∧ 4 ≤ n := by
    rintro x w hw ⟨y, hy, h1, h2⟩ hp
    cases hy
    have := hp x rfl
    rcases h2 with h2 | h2 | h2
    · have := this.mp h2.1
      rcases hw with rfl | rfl <;> simp at this
    · rcases hw with rfl | rfl <;> simp at h2
    · exact ⟨h1, h2.1, h2.2.2⟩
  have pub : ∀ {x : Rec}, FirstFour n ⟨some x, some .publish⟩ → Placed ⟨some x, some .publish⟩ →
      ¬ x.Probing ∧ x.tries = n := by
    rintro x ⟨y, hy, h1, h2⟩ hp
    cases hy
    have := hp x rfl
    rcases h2 with h2 | h2 | h2
    · have := this.mp h2.1
      simp at this
    · exact ⟨h2.1, h2.2.2⟩
    · simp at h2
  have prob : ∀ {x : Rec}, FirstFour n ⟨some x, some .probing⟩ → Placed ⟨some x, some .probing⟩ → x.rr.ttl ≠ 0 ∧ n = 0 := by
    rintro x ⟨y, hy, h1, h2⟩ hp
    cases hy
    have hpr := (hp _ rfl).mpr rfl
    rcases h2 with h2 | h2 | h2
    · exact ⟨h1, h2.2⟩
    · exact absurd hpr h2.1
    · exact absurd hpr h2.1
  cases h with
  | touch h => exact same h q
  | skip hw =>
    have := ans hw q hp
    exact ⟨_, rfl, this.1, .inr (.inr ⟨this.2.1, by simp, this.2.2⟩)⟩
  | shared => exact absurd (hl .new (by simp)) (by simp [Lab.sends])
  | unique => exact absurd (hl .new (by simp)) (by simp [Lab.sends])
  | edit => exact absurd (hl .set (by simp)) (by simp [Lab.sends])
  | publish => exact absurd (hl .set (by simp)) (by simp [Lab.sends])
  | @queue x p w hp' h hw =>
    obtain ⟨y, hy, h1, h2⟩ := q
    cases hy
    have h4 : 4 ≤ x.tries ∧ 4 ≤ n := by
      rcases h2 with h2 | h2 | h2
      · exact absurd h2.1 hp'
      · rcases h with h | h
        · exact ⟨h, by omega⟩
        · subst h
          simp at h2
      · exact h2.2.2
    refine ⟨_, rfl, h1, .inr (.inr ⟨hp', ?_, h4⟩)⟩
    rcases hw with rfl | rfl <;> simp
  | bye => exact absurd (hl .bye (by simp)) (by simp [Lab.sends])
  | drop => exact absurd (hl .free (by simp)) (by simp [Lab.sends])
  | sent hw ht h =>
    have := ans hw q hp
    refine ⟨_, rfl, by rw [h.rr]; exact ht, ?_⟩
    unfold Rec.Probing at *
    rw [h.unique, h.tries]
    exact .inr (.inr ⟨this.2.1, by simp, this.2.2.1, by omega⟩)
  | sentBye _ ht =>
    obtain ⟨y, hy, h1, h2⟩ := q
    cases hy
    exact absurd ht h1
  | announce ht h4 hr hu htr =>
    have := pub q hp
    refine ⟨_, rfl, by rw [hr]; exact ht, ?_⟩
    unfold Rec.Probing at *
    rw [hu, htr]
    exact .inr (.inl ⟨this.1, rfl, by simp [anns, Lab.isAn]; omega⟩)
  | announceLast ht h4 hr hu htr =>
    have := pub q hp
    refine ⟨_, rfl, by rw [hr]; exact ht, ?_⟩
    unfold Rec.Probing at *
    rw [hu, htr]
    exact .inr (.inr ⟨this.1, by simp, by omega, by simp [anns, Lab.isAn]; omega⟩)
  | verify hu hr hu' ht =>
    have := prob q hp
    refine ⟨_, rfl, by rw [hr]; exact this.1, ?_⟩
    unfold Rec.Probing
    rw [hu', ht]
    exact .inr (.inl ⟨by omega, rfl, by simp [anns, Lab.isAn]; omega⟩)
  | propose hu hr hu' ht =>
    have := prob q hp
    refine ⟨_, rfl, by rw [hr]; exact this.1, ?_⟩
    unfold Rec.Probing
    rw [hu']
    exact .inl ⟨by omega, by simp [anns, Lab.isAn]; omega⟩
  | unicast h => exact same h q
  | extra => exact q

theorem calm_lab {h : List Call} {r : Nat} (hl : ∀ k ∈ h, k.1.calm = true) :
    ∀ k ∈ h, ∀ m b, b ≠ .new → k.1.may m k.2 r b → b.sends ∨ b = .ask := by
  intro k hk m b hn hb
  have hl := hl k hk
  obtain ⟨o, a⟩ := k
  cases o <;> simp only [Op.calm, Bool.false_eq_true] at hl
  case send => exact .inl (sendLab.sends (r := r) hb)
  case sleep => exact .inr hb
  case shared => exact absurd hb.1 hn
  all_goals exact hb.elim

theorem Did.sets_probing {env : Env} {o : Op} {c c' : Core} {l l' : Lists} {a : OpOut} {r : Nat} (n : Did env o c l a c' l')
    (i : RInv c l) (ho : o.sets r = true) (hp : l.q .probing = []) : l'.q .probing = [] := by
  have key : ∀ y : Rec, (setSt c l r y).q.q .probing = [] := by
    intro y
    unfold setSt publishSt
    split
    · exact hp
    · rw [List.eq_nil_iff_forall_not_mem]
      intro s m
      rcases (mem_moveTo i).mp m with ⟨_, h⟩ | ⟨_, h⟩
      · cases h
      · rw [hp] at h
        cases h
  cases n <;> simp only [Op.sets, Bool.false_eq_true, beq_iff_eq] at ho <;> (subst ho; exact key _)

/-- Calm calls do not start probing. -/
theorem Calls.calm {env : Env} {d d' : D Ptrs} {h : List Call} (n : Calls env d h d') (hr : Reach env d)
    (hc : ∀ k ∈ h, k.1.calm = true) (hp : d.lists.q .probing = []) : d'.lists.q .probing = [] := by
  refine n.induct (P := fun _ _ l => l.q .probing = []) hr hp ?_
  rintro h1 c l o a c' l' ⟨h2, e⟩ p hi hu hso hdid hi'
  have m : (o, a) ∈ h := by rw [e]; simp
  by_cases hsd : o.isSend
  · cases hdid with
    | send ho => exact (ho.announces hu (hi.rinv.congr rfl rfl rfl) p).probing
    | _ => exact absurd hsd (by simp [Op.isSend])
  · exact (hdid.calm (hc _ m) hsd p).2

/-- C31, the time between announcements: a record is set while no record is being probed, and
then only calm calls are made.  From each of the first four times it is sent to each later one
of these there are at least two seconds.  Missing: other calls in between, see
`C31_spacing_counterexample`. -/
theorem C31_spacing_partial {env : Env} {d0 d : D Ptrs} (hr : Reach env d0) {h1 h2 : List Call} {o : Op}
    {a a1 a2 : OpOut} {t1 t2 : TV} {r : Nat}
    (n : Calls env d0 ((o, a) :: (h1 ++ (.send t1, a1) :: (h2 ++ [(.send t2, a2)]))) d)
    (ho : o.sets r = true) (hnp : d0.q.walk .probing = [])
    (hc1 : ∀ k ∈ h1, k.1.calm = true) (hc2 : ∀ k ∈ h2, k.1.calm = true)
    (hs1 : Call.shows .an r (.send t1, a1)) (hs2 : Call.shows .an r (.send t2, a2))
    (hn : shown .an r (h1 ++ (.send t1, a1) :: h2) < 4) : 2000000 ≤ tvdiff t1 t2 := by
  obtain ⟨d1, n1, n2⟩ := Calls.split (pre := [(o, a)]) n
  have n2 : Calls env d1 (h1 ++ (.send t1, a1) :: (h2 ++ [(.send t2, a2)])) d := n2
  have hs0 := n1.single
  have r1 := n1.reach hr
  have hd := hr.did hs0.1 hs0.2
  obtain ⟨x0, x, hx0, hx, _, hu, h5⟩ := hd.set hr.inv.rinv ho
  have hp1 : d1.lists.q .probing = [] := hd.sets_probing hr.inv.rinv ho hnp
  have hsz : r < d1.lists.size := r1.inv.rinv.bound r (by rw [hx]; rfl)
  have np0 : ¬ x0.Probing := by
    intro h
    have := (hr.inv.rinv.probing r x0 hx0).mpr h
    rw [show d0.lists.q .probing = [] from hnp] at this
    cases this
  obtain ⟨h6, h7⟩ : (view d1.c d1.lists r).at_ = some .publish ∧ x.tries = 0 := by
    rcases h5 with h5 | h5
    · exact absurd h5 np0
    · exact h5.2
  have np : ¬ x.Probing := by unfold Rec.Probing at *; rw [hu]; exact np0
  by_cases h0 : x.rr.ttl = 0
  · exfalso
    have hg : Gone 0 (view d1.c d1.lists r) := .inl ⟨x, hx, h0, np, rfl⟩
    have := n2.goodbye r1 hsz hg
    have hsh : 2 ≤ shown .an r (h1 ++ (.send t1, a1) :: (h2 ++ [(.send t2, a2)])) := by
      rw [shown_append, show (.send t1, a1) :: (h2 ++ [(.send t2, a2)]) = [(Op.send t1, a1)] ++ (h2 ++ [(.send t2, a2)]) from rfl,
        shown_append, shown_append, shown_one, shown_one, if_pos hs1, if_pos hs2]
      omega
    rcases this with ⟨_, _, _, _, h⟩ | ⟨_, h⟩ <;> omega
  obtain ⟨d2, d3, n3, hso1, e1, n4⟩ := n2.at
  obtain ⟨d4, d5, n5, hso2, e2, _⟩ := n4.at
  have r2 := n3.reach r1
  have r3 := r2.step hso1 e1
  have r4 := n5.reach r3
  have hp2 := n3.calm r1 hc1 hp1
  have hp3 : d3.lists.q .probing = [] := by
    have := Calls.calm (h := h1 ++ [(.send t1, a1)]) (.snoc n3 hso1 e1) r1 (fun k m => ?_) hp1
    · exact this
    · rcases List.mem_append.mp m with m | m
      · exact hc1 k m
      · rw [List.mem_singleton.mp m]; rfl
  have hp4 := n5.calm r3 hc2 hp3
  -- the record waits for the rest of its four announcements
  have wait : ∀ {h : List Call} {d' : D Ptrs}, Calls env d1 h d' → (∀ k ∈ h, k.1.calm = true) → shown .an r h < 4 →
      d'.lists.q .probing = [] → r ∈ d'.lists.q .publish := by
    intro h d' n hc hlt hpr
    have i := (n.reach r1).inv.rinv
    obtain ⟨y, hy, ht, q⟩ := (n.keeps r1 hsz (A := fun b => b.sends ∨ b = .ask) (Q := FirstFour)
      (fun h ha hp q => h.firstFour ha hp q) (calm_lab hc) ⟨x, hx, h0, .inr (.inl ⟨np, h6, h7⟩)⟩).1
    rcases q with h | h | h
    · have := (i.probing r y hy).mpr h.1
      rw [hpr] at this
      cases this
    · exact (mem_place i _).mpr h.2.1
    · omega
  have cons : (.send t1, a1) :: h2 = [(Op.send t1, a1)] ++ h2 := rfl
  rw [cons, ← List.append_assoc, shown_append, shown_append] at hn
  have w2 := wait n3 hc1 (by omega) hp2
  have hc3 : ∀ k ∈ h1 ++ [(Op.send t1, a1)], k.1.calm = true := by
    intro k m
    rcases List.mem_append.mp m with m | m
    · exact hc1 k m
    · rw [List.mem_singleton.mp m]; rfl
  have w3 := wait (.snoc n3 hso1 e1) hc3 (by rw [shown_append]; omega) hp3
  have w4 := wait (Calls.append (.snoc n3 hso1 e1) n5) (fun k m => by
    rcases List.mem_append.mp m with m | m
    · exact hc3 k m
    · exact hc2 k m) (by rw [shown_append, shown_append]; omega) hp4
  refine n5.announceGap r3 hp3 ?_ hc2 hso2 e2 w4 hs2
  unfold Call.shows at hs1
  simp only [Bool.and_eq_true, List.contains_iff_mem] at hs1
  have hd2 := r2.did hso1 e1
  cases hd2 with
  | send ho =>
    have an := ho.announces r2.uni (r2.inv.rinv.congr rfl rfl rfl) hp2
    exact (an.due r w2 hs1.2 hs1.1).2 (List.ne_nil_of_mem w3)

/-! ### C33 -/

/-- C33, for records that wait in the queue of responses or in the queue of delayed responses:
each of them is put in a packet for everyone by the following packets, however often they are
made.  Missing: records that do not fit in an empty packet, and while a
`_services._dns-sd._udp.local.` question is answered the other records are dropped, see
`C33_discovery_counterexample`. -/
theorem C33_queued_sent_partial {env : Env} {d : D Ptrs} (hr : Reach env d) (plain : d.c.disco = false)
    (fits : FitsAlone d.c) {r : Nat} (hq : r ∈ d.q.walk .now ∨ (r ∈ d.q.walk .pause ∧ d.c.shutdown = false)) :
    ∃ N, ∀ h d', Calls env d h d' → (∀ k ∈ h, ∃ t, k.1 = .send t ∧ (r ∈ d.q.walk .pause → tvdiff t d.c.pause ≤ 0)) → N ≤ h.length →
      ∃ k ∈ h, Call.shows .an r k := by
  refine ⟨waiting d.c d.lists, fun h d' n hs hl => ?_⟩
  rcases n.drain hr hs plain fits hq with h | h
  · exact h
  · omega

/-! ### C34 -/

theorem Gone.ttl {n : Nat} {v : View} (h : Gone n v) : ∀ x, v.x = some x → x.rr.ttl = 0 := by
  intro x hx
  rcases h with ⟨y, hy, h0, _⟩ | ⟨rfl, _⟩
  · rw [hy] at hx
    cases hx
    exact h0
  · cases hx

/-- C34, at most one goodbye: after `mdnsd_done` on a record that is not being probed, whatever
is called, the record is in at most one answer for everyone, all its entries have lifetime 0,
and when it was sent to everyone it is gone and never in a packet again. -/
theorem C34_one_goodbye_at_most {env : Env} {d0 d d' : D Ptrs} (hr : Reach env d0) {r : Nat} {a : OpOut} {h : List Call}
    {x : Rec} (hx : d0.c.recs r = some x) (hp : ¬ x.Probing) (n : Calls env d0 [(.done r, a)] d)
    (n' : Calls env d h d') :
    shown .an r h ≤ 1 ∧ (∀ k ∈ h, EntriesTtl r 0 k) ∧
      (shown .an r h = 1 → d'.c.recs r = none ∧ ∀ h' d'', Calls env d' h' d'' → ∀ k ∈ h', ∀ s, (s, r) ∉ k.2.tags) := by
  have r1 := n.reach hr
  have hd := hr.did n.single.1 n.single.2
  obtain ⟨hg, _⟩ := (hd.done_view hr.inv.rinv hx).2 hp
  have hsz0 : r < d0.lists.size := hr.inv.rinv.bound r (by rw [hx]; rfl)
  have hsz : r < d.lists.size := Nat.lt_of_lt_of_le hsz0 (hd.run hr.inv hr.uni).size
  have hgo := n'.goodbye r1 hsz hg
  refine ⟨by rcases hgo with ⟨_, _, _, _, h⟩ | ⟨_, h⟩ <;> omega, fun k m => ?_, fun h1 => ?_⟩
  · obtain ⟨pre, post, rfl⟩ := List.append_of_mem m
    obtain ⟨d1, d2, n1, hso, e, _⟩ := Calls.at (o := k.1) (a := k.2) n'
    exact entriesTtl (n1.reach r1) hso e (n1.goodbye r1 hsz hg).ttl
  · rcases hgo with ⟨_, _, _, _, h⟩ | ⟨h, _⟩
    · omega
    · refine ⟨congrArg View.x h, fun h' d'' n'' => n''.silent (n'.reach r1) ?_ h⟩
      refine Nat.lt_of_lt_of_le hsz ?_
      refine n'.induct (P := fun _ _ l => d.lists.size ≤ l.size) r1 (Nat.le_refl _) ?_
      rintro h1 c l o a c' l' _ p hi hu _ hdid _
      exact Nat.le_trans p (hdid.run hi hu).size

/-- C34, exactly one goodbye: after `mdnsd_done` on a record that was set and is not being probed,
when packets are made every two seconds, the record is in exactly one answer for everyone and is
gone.  Missing: a record that was never set is neither sent nor freed, and an answer for a
single host that was waiting is sent in addition, see the counterexamples. -/
theorem C34_one_goodbye_partial {env : Env} {h : List Call} {r : Nat} {a : OpOut} {T : TV} {d0 d : D Ptrs}
    (h0 : Hist env h d0) {x : Rec} (hx : d0.c.recs r = some x) (hp : ¬ x.Probing) (hset : ∃ k ∈ h, k.1.sets r = true)
    (n : Calls env d0 [(.done r, a)] d) (k : Quieted env (h ++ [(.done r, a)]) T d) (up : d.c.shutdown = false) :
    ∀ h' d', Calls env d h' d' → PacedFrom T h' → d.c.uanswers.length + 9 * d.q.size ≤ h'.length →
      shown .an r h' = 1 ∧ d'.c.recs r = none := by
  intro h' d' n' hpf hl
  have hr := h0.reach
  have hd := hr.did n.single.1 n.single.2
  obtain ⟨hg, hq⟩ := (hd.done_view hr.inv.rinv hx).2 hp
  obtain ⟨w, hw, hq⟩ := hq (h0.wasSet hset)
  exact n'.one k.hist.reach hpf.1 (k.rested hpf) up k.plain k.fits (Nat.le_trans (load_le _ _) hl) hg hw hq

/-- C34, silence: `mdnsd_done` on a record that is being probed frees it at once, and it is in no
packet after that. -/
theorem C34_probing_silent {env : Env} {d0 d : D Ptrs} (hr : Reach env d0) {r : Nat} {a : OpOut} {x : Rec}
    (hx : d0.c.recs r = some x) (hp : x.Probing) (n : Calls env d0 [(.done r, a)] d) :
    d.c.recs r = none ∧ ∀ h' d', Calls env d h' d' → ∀ k ∈ h', ∀ s, (s, r) ∉ k.2.tags := by
  have hd := hr.did n.single.1 n.single.2
  have hv := (hd.done_view hr.inv.rinv hx).1 hp
  have hsz0 : r < d0.lists.size := hr.inv.rinv.bound r (by rw [hx]; rfl)
  have hsz : r < d.lists.size := Nat.lt_of_lt_of_le hsz0 (hd.run hr.inv hr.uni).size
  exact ⟨congrArg View.x hv, fun h' d' n' => n'.silent (n.reach hr) hsz hv⟩

/-! ### C35 -/

theorem ByeL.all {rs : List Nat} {c c' : Core} {l l' : Lists} (n : ByeL (fun _ => True) rs c l c' l') :
    (∀ r, r ∈ l.q .now → (∃ x, c.recs r = some x ∧ x.rr.ttl = 0) → r ∈ l'.q .now ∧ ∃ x, c'.recs r = some x ∧ x.rr.ttl = 0) ∧
      ∀ r ∈ rs, r ∈ l'.q .now ∧ ∃ x, c'.recs r = some x ∧ x.rr.ttl = 0 := by
  induction n with
  | nil => exact ⟨fun _ h h' => ⟨h, h'⟩, by simp⟩
  | skip _ _ ht => exact absurd trivial ht
  | @bye r rs c c' l l' x h hx ht hq n ih =>
    obtain ⟨i1, i2⟩ := ih
    have hnow : ∀ s, s = r ∨ s ∈ l.q .now → s ∈ (byeSt c l r x).q.q .now := by
      intro s hs
      show s ∈ (l.set .now (r :: l.q .now)).q .now
      rw [show (l.set .now (r :: l.q .now)).q .now = r :: l.q .now from by simp [Lists.set]]
      exact List.mem_cons.mpr hs
    refine ⟨fun s hs ⟨y, hy, h0⟩ => i1 s (hnow s (.inr hs)) ?_, fun s hs => ?_⟩
    · by_cases e : s = r
      · subst e
        exact ⟨_, upd_same .., rfl⟩
      · exact ⟨y, (upd_other _ _ _ _ e).trans hy, h0⟩
    · rcases List.mem_cons.mp hs with rfl | hs
      · exact i1 s (hnow s (.inl rfl)) ⟨_, upd_same .., rfl⟩
      · exact i2 s hs

/-- Calls that are always safe can be made. -/
theorem Reach.sends {env : Env} (hk : env.KeepOnExpiry) : ∀ (ts : List TV) {d : D Ptrs}, Reach env d →
    ∃ h d', Calls env d h d' ∧ h.map (·.1) = ts.map Op.send := by
  intro ts
  suffices H : ∀ (ts : List TV) {d : D Ptrs}, Reach env d → ∀ h0 d0, Calls env d0 h0 d →
      ∃ h d', Calls env d0 (h0 ++ h) d' ∧ h.map (·.1) = ts.map Op.send from
    fun {d} hr => by
      obtain ⟨h, d', n, e⟩ := H ts hr [] d .nil
      exact ⟨h, d', n, e⟩
  intro ts
  induction ts with
  | nil => exact fun hr h0 d0 n => ⟨[], _, by simpa using n, rfl⟩
  | cons t ts ih =>
    intro d hr h0 d0 n
    obtain ⟨l, hrep⟩ := hr.rep
    obtain ⟨a, d1, l1, e1, _, _⟩ := hrep.step (.send t) (.inl hk)
    have hso : OpSafe env d.c d.q.walk (.send t) := .inl hk
    obtain ⟨h, d', n', e'⟩ := ih (hr.step hso e1) _ _ (Calls.snoc n hso e1)
    exact ⟨(.send t, a) :: h, d', by simpa using n', by simp [e']⟩

/-- C35, for a daemon that has no records to be probed or announced and no delayed responses:
after `mdnsd_shutdown` every record is in exactly one of the following packets, with lifetime 0,
and is freed; all packets can be made.  Missing: with such records freed memory may be used, see
`C43_shutdown_counterexample`. -/
theorem C35_goodbyes_partial {env : Env} {d0 d : D Ptrs} (hr : Reach env d0) {a : OpOut}
    (n : Calls env d0 [(.shutdown, a)] d) (plain : d.c.disco = false) (fits : FitsAlone d.c) :
    (env.KeepOnExpiry → ∀ ts : List TV, ∃ h d', Calls env d h d' ∧ h.map (·.1) = ts.map Op.send) ∧
    ∃ N, ∀ h d', Calls env d h d' → (∀ k ∈ h, ∃ t, k.1 = .send t) → N ≤ h.length →
      ∀ r x, d0.c.recs r = some x → shown .an r h = 1 ∧ (∀ k ∈ h, EntriesTtl r 0 k) ∧ d'.c.recs r = none := by
  have r1 := n.reach hr
  refine ⟨fun hk ts => r1.sends hk ts, waiting d.c d.lists, fun h d' n' hs hl r x hx => ?_⟩
  have hd := hr.did n.single.1 n.single.2
  have key : r ∈ d.lists.q .now ∧ ∃ x, d.c.recs r = some x ∧ x.rr.ttl = 0 := by
    generalize d.c = c' at hd ⊢
    generalize d.lists = l' at hd ⊢
    cases hd with
    | shutdown hq n =>
      cases n with
      | mk n =>
        refine n.all.2 r ?_
        exact hr.inv.rinv.mem_all hx
  obtain ⟨hq, y, hy, h0⟩ := key
  have i := r1.inv.rinv
  have np : ¬ y.Probing := by
    intro h
    cases i.disj _ _ _ hq ((i.probing r y hy).mpr h)
  have hg : Gone 0 (view d.c d.lists r) := .inl ⟨y, hy, h0, np, rfl⟩
  have hsz : r < d.lists.size := i.bound r (by rw [hy]; rfl)
  have hpos : 0 < shown .an r h := by
    rcases n'.drain r1 (r := r) (fun k m => (hs k m).elim fun t e => ⟨t, e, fun h => by cases i.disj _ _ _ hq h⟩) plain fits
      (.inl hq) with ⟨k, m, hk⟩ | h
    · exact List.length_pos_of_mem (List.mem_filter.mpr ⟨m, hk⟩)
    · omega
  refine ⟨?_, fun k m => ?_, ?_⟩
  · rcases n'.goodbye r1 hsz hg with ⟨_, _, _, _, h⟩ | ⟨_, h⟩ <;> omega
  · obtain ⟨pre, post, rfl⟩ := List.append_of_mem m
    obtain ⟨d1, d2, n1, hso, e, _⟩ := Calls.at (o := k.1) (a := k.2) n'
    exact entriesTtl (n1.reach r1) hso e (n1.goodbye r1 hsz hg).ttl
  · rcases n'.goodbye r1 hsz hg with ⟨_, _, _, _, h⟩ | ⟨h, _⟩
    · omega
    · exact congrArg View.x h

/-! ### Concrete cases -/

deriving instance DecidableEq for Op

instance (x : Rec) : Decidable x.Probing := inferInstanceAs (Decidable (_ ∧ _))

/-- The call number `i` made a packet at time `t` with the record in the section. -/
def sentAt (h : List Call) (i : Nat) (t : TV) (s : Section) (r : Nat) : Bool :=
  (h[i]?).any fun k => k.1 = .send t && k.2.tags.contains (s, r)

namespace Sample

/-- The calls with their results, and the daemon after them. -/
def trace (env : Env) : List Op → D Ptrs → List Call × D Ptrs
  | [], d => ([], d)
  | o :: rest, d => match Mdns.step env o d with
    | .ok (a, d') => ((o, a) :: (trace env rest d').1, (trace env rest d').2)
    | _ => ([], d)

def fresh : D Ptrs := newD 1 1500 (at_ 100)

/-- Seconds and milliseconds. -/
def ms (s n : Nat) : TV := ⟨s, n * 1000⟩

theorem trace_calls : ∀ (ops : List Op) {d : D Ptrs}, safeRunB quiet d ops = true →
    ∀ h0 d0, Calls quiet d0 h0 d → Calls quiet d0 (h0 ++ (trace quiet ops d).1) (trace quiet ops d).2
  | [], d, _, h0, d0, n => by simpa [trace] using n
  | o :: rest, d, hb, h0, d0, n => by
    unfold safeRunB at hb
    rw [Bool.and_eq_true] at hb
    unfold trace
    cases e : Mdns.step quiet o d with
    | ok p =>
      have h2 := hb.2
      rw [e] at h2
      have := trace_calls rest h2 _ _ (Calls.snoc n (opSafeB_sound quiet_keeps hb.1) e)
      simpa using this
    | ub => rw [e] at hb; cases hb.2
    | hang => rw [e] at hb; cases hb.2

theorem calls_of {ops : List Op} {d : D Ptrs} (h : safeRunB quiet d ops = true) :
    Calls quiet d (trace quiet ops d).1 (trace quiet ops d).2 := by
  simpa using trace_calls ops h [] d .nil

theorem hist_of {ops : List Op} (h : safeRunB quiet fresh ops = true) :
    Hist quiet (trace quiet ops fresh).1 (trace quiet ops fresh).2 := (calls_of h).hist

/-- Whether all records fit in an empty packet. -/
def fitsB (d : D Ptrs) : Bool := (List.range d.q.size).all fun r => match d.c.recs r with
  | some x => decide (({} : Out).len + rrLen x.rr < d.c.frame)
  | none => true

theorem fits_of {d : D Ptrs} (hr : Reach quiet d) (h : fitsB d = true) : FitsAlone d.c := by
  intro r x hx
  have hb : r < d.q.size := hr.inv.rinv.bound r (by rw [hx]; rfl)
  have := List.all_eq_true.mp h r (List.mem_range.mpr hb)
  rw [hx] at this
  exact of_decide_eq_true this

instance (T : TV) (k : Call) : Decidable (Call.before T k) := by
  unfold Call.before
  split <;> infer_instance

theorem ready_of {ops : List Op} {T : TV} (h : safeRunB quiet fresh ops = true)
    (hT : 2000000 ≤ tvdiff (at_ 100) T) (hp : ∀ k ∈ (trace quiet ops fresh).1, Call.before T k)
    (hd : (trace quiet ops fresh).2.c.disco = false) (hf : fitsB (trace quiet ops fresh).2 = true) :
    Quieted quiet (trace quiet ops fresh).1 T (trace quiet ops fresh).2 where
  calls := ⟨1, 1500, at_ 100, by decide, hT, calls_of h⟩
  past := hp
  plain := hd
  fits := fits_of (hist_of h).reach hf

/-- A host with a service: an address to be probed and a PTR record. -/
def host : List Op := [.unique (nm 97) 1 120 (some 1), .setIp 0 ipA, .shared (nm 98) 12 120, .setHost 1 (nm 97)]

/-- `n` packets, two seconds apart. -/
def every (start n : Nat) : List Op := (List.range n).map fun i => .send (at_ (start + 2 * i))

/-- C57, C29, C31: the hypotheses hold for the host; its address is probed three times and
announced four times. -/
example : Quieted quiet (trace quiet host fresh).1 (at_ 103) (trace quiet host fresh).2 ∧
    (trace quiet host fresh).2.c.shutdown = false ∧
    Calls quiet (trace quiet host fresh).2 (trace quiet (every 103 18) (trace quiet host fresh).2).1
      (trace quiet (every 103 18) (trace quiet host fresh).2).2 ∧
    MadeUnique 0 (trace quiet host fresh).1 ∧
    shown .ns 0 (trace quiet (every 103 18) (trace quiet host fresh).2).1 = 3 ∧
    shown .an 0 (trace quiet (every 103 18) (trace quiet host fresh).2).1 = 4 :=
  ⟨ready_of (by decide +kernel) (by decide) (by decide +kernel) (by decide +kernel) (by decide +kernel), by decide +kernel,
    calls_of (by decide +kernel), ⟨nm 97, 1, 120, some 1, by decide +kernel⟩, by decide +kernel, by decide +kernel⟩

theorem paced_every (start n : Nat) (d : D Ptrs) (h : safeRunB quiet d (every start n) = true) :
    PacedFrom (at_ start) (trace quiet (every start n) d).1 := by
  have e : ∀ (ops : List Op) (d : D Ptrs), safeRunB quiet d ops = true → (trace quiet ops d).1.map (·.1) = ops := by
    intro ops
    induction ops with
    | nil => intro _ _; rfl
    | cons o ops ih =>
      intro d h
      unfold safeRunB at h
      rw [Bool.and_eq_true] at h
      unfold trace
      cases e : Mdns.step quiet o d with
      | ok p =>
        have h2 := h.2
        rw [e] at h2
        simp [ih _ h2]
      | ub => rw [e] at h; cases h.2
      | hang => rw [e] at h; cases h.2
  have e := e _ _ h
  generalize (trace quiet (every start n) d).1 = l at e
  have mem : ∀ k ∈ l, ∃ i, i < n ∧ k.1 = .send (at_ (start + 2 * i)) := by
    intro k hk
    have : k.1 ∈ l.map (·.1) := List.mem_map.mpr ⟨k, hk, rfl⟩
    rw [e] at this
    obtain ⟨i, hi, e⟩ := List.mem_map.mp this
    exact ⟨i, List.mem_range.mp hi, e.symm⟩
  refine ⟨⟨fun k hk => ?_, ?_⟩, fun k hk t e => ?_⟩
  · obtain ⟨i, _, e⟩ := mem k hk
    exact ⟨_, e⟩
  · have : (l.map (·.1)).Pairwise fun o o' => ∀ t t', o = .send t → o' = .send t' → 2000000 ≤ tvdiff t t' := by
      rw [e]
      unfold every
      rw [List.pairwise_map]
      refine List.pairwise_lt_range.imp ?_
      rintro i j hij t t' e e'
      cases e
      cases e'
      unfold tvdiff at_
      dsimp only
      omega
    exact List.pairwise_map.mp this
  · obtain ⟨i, _, e'⟩ := mem k hk
    rw [e'] at e
    cases e
    unfold tvdiff at_
    dsimp only
    omega

/-- C57: the packets of the example above. -/
example : PacedFrom (at_ 103) (trace quiet (every 103 18) (trace quiet host fresh).2).1 ∧
    (trace quiet host fresh).2.c.uanswers.length + 9 * (trace quiet host fresh).2.q.size ≤
      (trace quiet (every 103 18) (trace quiet host fresh).2).1.length :=
  ⟨paced_every _ _ _ (by decide +kernel), by decide +kernel⟩

/-- A record that was announced four times. -/
def announced : List Op := [.shared (nm 97) 1 120, .setIp 0 ipA] ++ every 101 4

def ask (name : Bytes) (t : Nat) : Msg :=
  { id := 0, header := {}, qd := [⟨name, t, 1⟩], an := [], ns := [], ar := [] }

/-- A host that wants unicast answers. -/
def lone : Addr := ⟨.v4 #v[10, 0, 0, 9], 1000⟩

/-- C33: a response waits. -/
example : Reach quiet (trace quiet (announced ++ [.recv (at_ 110) (ask (nm 97) 1) other]) fresh).2 ∧
    FitsAlone (trace quiet (announced ++ [.recv (at_ 110) (ask (nm 97) 1) other]) fresh).2.c ∧
    0 ∈ (trace quiet (announced ++ [.recv (at_ 110) (ask (nm 97) 1) other]) fresh).2.q.walk .pause :=
  have hr := (hist_of (ops := announced ++ [.recv (at_ 110) (ask (nm 97) 1) other]) (by decide +kernel)).reach
  ⟨hr, fits_of hr (by decide +kernel), by decide +kernel⟩

/-- C34: the record is withdrawn; then it is in one packet and gone. -/
example : Hist quiet (trace quiet announced fresh).1 (trace quiet announced fresh).2 ∧
    ((trace quiet announced fresh).2.c.recs 0).any (fun x => ¬ x.Probing) ∧
    (∃ k ∈ (trace quiet announced fresh).1, k.1.sets 0 = true) ∧
    Calls quiet (trace quiet announced fresh).2 (trace quiet [.done 0] (trace quiet announced fresh).2).1
      (trace quiet [.done 0] (trace quiet announced fresh).2).2 ∧
    Quieted quiet (trace quiet (announced ++ [.done 0]) fresh).1 (at_ 110) (trace quiet (announced ++ [.done 0]) fresh).2 ∧
    shown .an 0 (trace quiet (every 110 10) (trace quiet (announced ++ [.done 0]) fresh).2).1 = 1 :=
  ⟨hist_of (by decide +kernel), by decide +kernel, by decide +kernel, calls_of (by decide +kernel),
    ready_of (by decide +kernel) (by decide) (by decide +kernel) (by decide +kernel) (by decide +kernel), by decide +kernel⟩

/-- C34: a record that is being probed. -/
example : Reach quiet (trace quiet host fresh).2 ∧ ((trace quiet host fresh).2.c.recs 0).any (fun x => x.Probing) ∧
    Calls quiet (trace quiet host fresh).2 (trace quiet [.done 0] (trace quiet host fresh).2).1
      (trace quiet [.done 0] (trace quiet host fresh).2).2 :=
  ⟨(hist_of (by decide +kernel)).reach, by decide +kernel, calls_of (by decide +kernel)⟩

/-- C35: two records, one of them never set; both are in the goodbye packet. -/
example : Reach quiet (trace quiet (announced ++ [.shared (nm 98) 1 120]) fresh).2 ∧
    Calls quiet (trace quiet (announced ++ [.shared (nm 98) 1 120]) fresh).2
      (trace quiet [.shutdown] (trace quiet (announced ++ [.shared (nm 98) 1 120]) fresh).2).1
      (trace quiet [.shutdown] (trace quiet (announced ++ [.shared (nm 98) 1 120]) fresh).2).2 ∧
    FitsAlone (trace quiet (announced ++ [.shared (nm 98) 1 120, .shutdown]) fresh).2.c ∧
    shown .an 1 (trace quiet (every 110 2) (trace quiet (announced ++ [.shared (nm 98) 1 120, .shutdown]) fresh).2).1 = 1 :=
  ⟨(hist_of (by decide +kernel)).reach, calls_of (by decide +kernel),
    fits_of (hist_of (by decide +kernel)).reach (by decide +kernel), by decide +kernel⟩

/-- C31: the calls before the fourth announcement. -/
example : Calls quiet (trace quiet [.shared (nm 97) 1 120] fresh).2
      (trace quiet ([.setIp 0 ipA] ++ every 101 4) (trace quiet [.shared (nm 97) 1 120] fresh).2).1
      (trace quiet ([.setIp 0 ipA] ++ every 101 4) (trace quiet [.shared (nm 97) 1 120] fresh).2).2 ∧
    (trace quiet ([.setIp 0 ipA] ++ every 101 4) (trace quiet [.shared (nm 97) 1 120] fresh).2).1.map
      (Call.shows .an 0) = [false, true, true, true, true] :=
  ⟨calls_of (by decide +kernel), by decide +kernel⟩

end Sample

/-! ### Counterexamples -/

open Sample in
/-- C29: two probes of one record 10 ms apart, since another record is created in between. -/
theorem C29_spacing_counterexample : ∃ h d, Hist quiet h d ∧ ∃ i j t1 t2, i < j ∧ sentAt h i t1 .ns 0 ∧
    sentAt h j t2 .ns 0 ∧ tvdiff t1 t2 = 10000 :=
  ⟨_, _, hist_of (ops := [.unique (nm 97) 1 120 (some 1), .setIp 0 ipA, .send (ms 100 0), .unique (nm 98) 1 120 (some 1),
    .send (ms 100 10)]) (by decide +kernel), 2, 4, ms 100 0, ms 100 10, by decide +kernel⟩

open Sample in
/-- C30: a record that was never probed is in the additional section of a packet to everyone. -/
theorem C30_additional_counterexample : ∃ h d, Hist quiet h d ∧ MadeUnique 1 h ∧ shown .ns 1 h = 0 ∧
    ∃ i t, sentAt h i t .ar 1 ∧ (h[i]?).any (·.2.multi) :=
  ⟨_, _, hist_of (ops := [.shared (nm 98) 33 120, .setSrv 0 0 0 80 (nm 97)] ++ every 101 4 ++
    [.unique (nm 97) 1 120 (some 1), .setIp 1 ipA, .recv (at_ 110) (ask (nm 98) 33) other, .send (at_ 111)])
    (by decide +kernel), ⟨nm 97, 1, 120, some 1, by decide +kernel⟩, by decide +kernel, 9, at_ 111, by decide +kernel⟩

open Sample in
/-- C30: a record that was never probed is the answer for a single host. -/
theorem C30_unicast_counterexample : ∃ h d, Hist quiet h d ∧ MadeUnique 0 h ∧ shown .ns 0 h = 0 ∧
    ∃ i t, sentAt h i t .an 0 :=
  ⟨_, _, hist_of (ops := [.unique (nm 97) 1 120 (some 1), .setIp 0 ipA, .recv (at_ 100) (ask (nm 97) 1) lone,
    .send (at_ 100)]) (by decide +kernel), ⟨nm 97, 1, 120, some 1, by decide +kernel⟩, by decide +kernel, 3, at_ 100,
    by decide +kernel⟩

open Sample in
/-- C31: the second announcement one millisecond after the first, since another record is set in
between. -/
theorem C31_spacing_counterexample : ∃ h d, Hist quiet h d ∧ ∃ i j t1 t2, i < j ∧ sentAt h i t1 .an 0 ∧
    sentAt h j t2 .an 0 ∧ shown .an 0 h = 2 ∧ tvdiff t1 t2 = 1000 :=
  ⟨_, _, hist_of (ops := [.shared (nm 97) 1 120, .setIp 0 ipA, .send (ms 100 0), .shared (nm 98) 1 120, .setIp 1 ipA,
    .send (ms 100 1)]) (by decide +kernel), 2, 5, ms 100 0, ms 100 1, by decide +kernel⟩

open Sample in
/-- C33: a response that waits is dropped when a `_services._dns-sd._udp.local.` question came
with its question: after the next packet nothing waits, and that packet does not have it. -/
theorem C33_discovery_counterexample : ∃ d, Reach quiet d ∧ FitsAlone d.c ∧ 0 ∈ d.q.walk .pause ∧
    ∃ h d', Calls quiet d h d' ∧ h.map (·.1) = [.send (at_ 111)] ∧ shown .an 0 h = 0 ∧ ∀ w, d'.q.walk w = [] := by
  have hs : safeRunB quiet fresh ([.shared (nm 97) 1 120, .setIp 0 ipA, .shared discoName 12 120, .setHost 1 (nm 97)] ++
    every 101 4 ++ [.recv (at_ 110) { ask (nm 97) 1 with qd := [⟨nm 97, 1, 1⟩, ⟨discoName, 12, 1⟩] } other]) = true := by
    decide +kernel
  exact ⟨_, (hist_of hs).reach, fits_of (hist_of hs).reach (by decide +kernel), by decide +kernel, _, _,
    calls_of (ops := [.send (at_ 111)]) (by decide +kernel), by decide +kernel, by decide +kernel,
    fun w => by cases w <;> decide +kernel⟩

open Sample in
/-- C34: a record that was never set is not sent when it is withdrawn, waits nowhere, and stays. -/
theorem C34_never_set_counterexample : ∃ d0, Reach quiet d0 ∧ ∃ a d, Calls quiet d0 [(.done 0, a)] d ∧
    (d0.c.recs 0).any (fun x => ¬ x.Probing) ∧ (d.c.recs 0).isSome ∧ ∀ w, d.q.walk w = [] := by
  have hs : safeRunB quiet fresh [.shared (nm 97) 1 120] = true := by decide +kernel
  have n := calls_of (ops := [.done 0]) (d := (trace quiet [.shared (nm 97) 1 120] fresh).2) (by decide +kernel)
  exact ⟨_, (hist_of hs).reach, .unit, _, n, by decide +kernel, by decide +kernel, fun w => by cases w <;> decide +kernel⟩

open Sample in
/-- C34: two goodbyes, the first of them for a single host. -/
theorem C34_unicast_counterexample : ∃ h d, Hist quiet h d ∧ ∃ i j k t1 t2, i < j ∧ j < k ∧
    (h[i]?).any (fun k => k.1 = .done 0) ∧ sentAt h j t1 .an 0 ∧ sentAt h k t2 .an 0 :=
  ⟨_, _, hist_of (ops := announced ++ [.recv (at_ 110) (ask (nm 97) 1) lone, .done 0, .send (at_ 111), .send (at_ 113)])
    (by decide +kernel), 7, 8, 9, at_ 111, at_ 113, by decide +kernel⟩

end Mdns
