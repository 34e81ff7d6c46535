import Verif.Lemmas.Progress

/-!
# What series of calls do
-/

namespace Mdns

/-! ### Waiting answers -/

theorem OutMsg.kept {env : Env} {c : Core} {l : Lists} {ret : Nat} {m : Out} {to : Addr} {c' : Core} {l' : Lists}
    (n : OutMsg env c l ret m to c' l') : Kept c c' := by
  cases n with
  | unicast hu hx na => exact (Kept.refl c).set hx rfl rfl rfl Iff.rfl
  | shutdown hu n1 n2 _ => exact (n2.made (n1.made (c0 := c) ⟨Kept.refl c, .start ..⟩)).kept
  | normal hu n1 n2 _ n3 =>
    have k := n2.made (n1.made (c0 := c) ⟨Kept.refl c, .start ..⟩)
    cases n3 with
    | answers np na hr => exact (np.made k).kept
    | @probes s3 s4 m0 seen np na hr nb hr2 =>
      have a := np.answering (n2.answering (n1.answering (.start c l)))
      obtain ⟨e1, e2⟩ := a.empty hr
      rw [e2] at na
      have := na.none
      subst this
      have k := np.made k
      have k : OMade c { s3 with m := { s3.m with qr := false, aa := false } } := ⟨k.kept, k.made⟩
      exact (nb.made k).kept
    | @questions s3 s4 m0 seen _ _ _ _ np na hr nb hr2 nq ng =>
      have a := np.answering (n2.answering (n1.answering (.start c l)))
      obtain ⟨e1, e2⟩ := a.empty hr
      rw [e2] at na
      have := na.none
      subst this
      have k := np.made k
      have k : OMade c { s3 with m := { s3.m with qr := false, aa := false } } := ⟨k.kept, k.made⟩
      have k := (nb.made k).kept
      refine k.congr ?_ ?_
      · rw [ng.recs]
        exact (congrArg Core.recs nq.rest : Core.recs (Core.rest _) = Core.recs (Core.rest _))
      · refine (?_ : _ = _).trans (congrArg Core.cls nq.rest : Core.cls (Core.rest _) = Core.cls (Core.rest _))
        cases ng with
        | no => rfl
        | yes hc hn e =>
          obtain ⟨c1, evs, e1, s1, _⟩ := hc.gc env
          rw [e1] at e
          cases e
          exact (congrArg Core.cls s1.rest : c1.rest.cls = Core.cls (Core.rest _))

/-- After enough packets everything that waits has been sent. -/
theorem Calls.drain {env : Env} {d d' : D Ptrs} {h : List Call} (n : Calls env d h d') (hr : Reach env d)
    {r : Nat} (hs : ∀ k ∈ h, ∃ t, k.1 = .send t ∧ (r ∈ d.lists.q .pause → tvdiff t d.c.pause ≤ 0)) (hd : d.c.disco = false)
    (hf : FitsAlone d.c)
    (hq : r ∈ d.lists.q .now ∨ (r ∈ d.lists.q .pause ∧ d.c.shutdown = false)) :
    (∃ k ∈ h, Call.shows .an r k) ∨ h.length < waiting d.c d.lists := by
  suffices H : (∃ k ∈ h, Call.shows .an r k) ∨
      ((r ∈ d.lists.q .now → r ∈ d'.lists.q .now) ∧ (r ∈ d.lists.q .pause → r ∈ d'.lists.q .pause) ∧
        waiting d'.c d'.lists + h.length ≤ waiting d.c d.lists ∧ FitsAlone d'.c ∧ d'.c.disco = false ∧
        d'.c.shutdown = d.c.shutdown ∧ d'.c.pause = d.c.pause) by
    rcases H with H | ⟨h1, h2, h3, _⟩
    · exact .inl H
    · right
      have : 0 < waiting d'.c d'.lists := by
        unfold waiting
        rcases hq with hq | hq
        · have := List.length_pos_of_mem (h1 hq)
          omega
        · have := List.length_pos_of_mem (h2 hq.1)
          omega
      omega
  refine n.induct (P := fun h c l => (∃ k ∈ h, Call.shows .an r k) ∨
      ((r ∈ d.lists.q .now → r ∈ l.q .now) ∧ (r ∈ d.lists.q .pause → r ∈ l.q .pause) ∧
        waiting c l + h.length ≤ waiting d.c d.lists ∧ FitsAlone c ∧ c.disco = false ∧
        c.shutdown = d.c.shutdown ∧ c.pause = d.c.pause)) hr (.inr ⟨id, id, Nat.le_refl _, hf, hd, rfl, rfl⟩) ?_
  rintro h1 c l o a c' l' ⟨h2, e⟩ hp hi hu hso hdid hi'
  rcases hp with ⟨k, m, hk⟩ | ⟨p1, p2, p3, p4, p5, p6, p7⟩
  · exact .inl ⟨k, List.mem_append_left _ m, hk⟩
  · obtain ⟨t, rfl, ht⟩ := hs (o, a) (by rw [e]; simp)
    cases hdid with
    | @send _ ret m to _ _ _ _ ho =>
      have hdue : Due t ({ c with now := t } : Core) l r := by
        rcases hq with hq | ⟨hq, hsd⟩
        · exact .inl (p1 hq)
        · exact .inr ⟨p2 hq, by show tvdiff t c.pause ≤ 0; rw [p7]; exact ht hq, p6.trans hsd⟩
      rcases ho.progress p5 p4 hdue with ⟨h3, h4⟩ | ⟨h3, h4, h5⟩
      · left
        refine ⟨(.send t, .sent ret m to), by simp, ?_⟩
        unfold Call.shows OpOut.multi OpOut.tags
        simp only [h4, mcast_multi, Bool.true_and, List.contains_iff_mem]
        exact h3
      · right
        obtain ⟨cn, cf, cp, cs, cd⟩ := Core.conf_eq ho.conf
        refine ⟨fun h => h3 (p1 h), fun h => h4 (p2 h), ?_, ho.kept.fits cf p4, cd.trans p5, cs.trans p6, cp.trans p7⟩
        have h5 : waiting c' l' + 1 ≤ waiting c l := h5
        rw [List.length_append, List.length_singleton]
        omega

/-! ### The probe timer -/

theorem GcOpt.probe {env : Env} {c c' : Core} (n : GcOpt env c c') : c'.probe = c.probe := n.rest.2.1

theorem Core.rest_probe {c c' : Core} (e : c'.rest = c.rest) : c'.probe = c.probe :=
  (congrArg Core.probe e : c'.rest.probe = c.rest.probe)

/-- A packet with probes is sent only when the timer has run out, and sets it again; other
packets leave it alone. -/
theorem OutMsg.probe {env : Env} {c : Core} {l : Lists} {ret : Nat} {m : Out} {to : Addr} {c' : Core} {l' : Lists}
    (n : OutMsg env c l ret m to c' l') :
    (tvdiff c.now c.probe ≤ 0 ∧ c'.probe = ⟨c.now.sec, c.now.usec + 250000⟩ ∧ ∃ r, (Section.ns, r) ∈ m.tags) ∨
      ((∀ r, (Section.ns, r) ∉ m.tags) ∧ c'.probe = c.probe) := by
  have hans : ∀ {s : OSt} {m : Out} {J : Nat → Prop} {seen : List Nat}, Answering s → AddL s.c J s.m s.seen m seen →
      ∀ r, (Section.ns, r) ∉ m.tags := by
    intro s m J seen a na r hm
    rcases na.extra _ hm with hm | ⟨e, _⟩
    · cases a.tags _ hm
    · cases e
  cases n with
  | unicast hu hx na =>
    right
    refine ⟨fun r hm => ?_, rfl⟩
    rcases na.extra _ hm with hm | ⟨e, _⟩
    · cases List.mem_singleton.mp hm
    · cases e
  | shutdown hu n1 n2 _ =>
    right
    refine ⟨fun r hm => ?_, (n1.slow.trans n2.slow).probe⟩
    cases (n2.answering (n1.answering (.start c l))).tags _ hm
  | normal hu n1 n2 _ n3 =>
    have a := n2.answering (n1.answering (.start c l))
    have hp := (n1.slow.trans n2.slow).probe
    cases n3 with
    | answers np na hr =>
      right
      exact ⟨hans (np.answering a) na, np.slow.probe.trans hp⟩
    | @probes s3 s4 m0 seen np na hr nb hr2 =>
      left
      have c3 : s3.c.conf = c.conf := np.conf.1.trans (n2.conf.trans n1.conf.1)
      obtain ⟨cn, _⟩ := Core.conf_eq c3
      have hp3 : s3.c.probe = c.probe := np.slow.probe.trans hp
      obtain ⟨rs, _, e3, er⟩ := nb.tags
      have e3 : s4.m.tags = m0.tags ++ rs.map fun r => (.ns, r) := e3
      have er : s4.ret = s3.ret + rs.length := er
      have hm : ∃ r, (Section.ns, r) ∈ s4.m.tags := by
        cases rs with
        | nil => exact absurd (er.trans hr) hr2
        | cons q qs => exact ⟨q, by rw [e3]; simp⟩
      cases nb with
      | no => exact absurd hr hr2
      | @yes u t h1 h2 na' nb' =>
        have h2 : tvdiff s3.c.now s3.c.probe ≤ 0 := h2
        rw [cn, hp3] at h2
        refine ⟨h2, ?_, hm⟩
        have hr2 : t.ret ≠ 0 := hr2
        show (if t.ret ≠ 0 then _ else _ : Core).probe = _
        rw [if_pos hr2]
        have ct : t.c.conf = c.conf := nb'.conf.1.trans (na'.conf.trans c3)
        obtain ⟨cn', _⟩ := Core.conf_eq ct
        show (⟨t.c.now.sec, t.c.now.usec + 250000⟩ : TV) = _
        rw [cn']
    | @questions s3 s4 m0 seen _ _ _ _ np na hr nb hr2 nq ng =>
      right
      have a := np.answering a
      obtain ⟨e1, e2⟩ := a.empty hr
      have hp3 : s3.c.probe = c.probe := np.slow.probe.trans hp
      constructor
      · intro r hm
        rw [e2] at na
        have := na.none
        subst this
        obtain ⟨rs, hn, e3, er⟩ := nb.tags
        have e3 : s4.m.tags = s3.m.tags ++ rs.map fun r => (.ns, r) := e3
        have er : s4.ret = s3.ret + rs.length := er
        have : rs = [] := List.eq_nil_of_length_eq_zero (by omega)
        subst this
        rw [nq.tags, e3, e1] at hm
        cases hm
      · rw [ng.probe, Core.rest_probe nq.rest]
        refine Eq.trans ?_ hp3
        cases nb with
        | no => rfl
        | @yes u t h1 h2 na' nb' =>
          have hr2 : t.ret = 0 := hr2
          show (if t.ret ≠ 0 then _ else _ : Core).probe = _
          rw [if_neg (by simpa using hr2)]
          exact (na'.slow.trans nb'.slow).probe

/-- Between packets with probes there are 250 ms, unless another unique record is made. -/
theorem Calls.probeGap {env : Env} {d d' d'' : D Ptrs} {h : List Call} (n : Calls env d h d') (hr : Reach env d) {t1 t2 : TV}
    (hp : d.c.probe = ⟨t1.sec, t1.usec + 250000⟩) (hu : ∀ k ∈ h, ¬ k.1.isUnique)
    {a : OpOut} (hs : OpSafe env d'.c d'.q.walk (.send t2))
    (e : Mdns.step env (.send t2) d' = .ok (a, d'')) {r : Nat} (ha : (Section.ns, r) ∈ a.tags) :
    250000 ≤ tvdiff t1 t2 := by
  have h1 : 250000 ≤ tvdiff t1 d'.c.probe := by
    refine n.induct (P := fun _ c _ => 250000 ≤ tvdiff t1 c.probe) hr ?_ ?_
    · rw [hp]
      unfold tvdiff
      dsimp only
      omega
    · rintro h1 c l o a c' l' ⟨h2, e⟩ hp hi hu' hso hdid hi'
      have m : (o, a) ∈ h := by rw [e]; simp
      by_cases hsd : o.isSend
      · cases hdid with
        | @send t _ _ _ _ _ _ _ ho =>
          rcases ho.probe with ⟨h3, h4, _⟩ | ⟨_, h4⟩
          · rw [h4]
            have h3 : tvdiff t c.probe ≤ 0 := h3
            unfold tvdiff at *
            dsimp only
            omega
          · rw [h4]
            exact hp
        | _ => exact absurd hsd (by simp [Op.isSend])
      · rw [hdid.probe (hu _ m) hsd]
        exact hp
  have hd := (n.reach hr).did hs e
  cases hd with
  | send ho =>
    rcases ho.probe with ⟨h3, _⟩ | ⟨h3, _⟩
    · have h3 : tvdiff t2 d'.c.probe ≤ 0 := h3
      unfold tvdiff at *
      omega
    · exact absurd ha (h3 r)

end Mdns
