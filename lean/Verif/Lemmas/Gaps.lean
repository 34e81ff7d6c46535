import Verif.Lemmas.Lives

/-!
# The time between announcements
-/

namespace Mdns

/-- What a packet does about announcements when no record is being probed. -/
structure Announces (c : Core) (l : Lists) (m : Out) (to : Addr) (c' : Core) (l' : Lists) : Prop where
  probing : l'.q .probing = []
  timer : c'.publish = c.publish ∨ (tvdiff c.now c.publish ≤ 0 ∧ c'.publish = ⟨c.now.sec + 2, c.now.usec⟩)
  due : ∀ r, r ∈ l.q .publish → (.an, r) ∈ m.tags → (to.port == 5353) = true →
    tvdiff c.now c.publish ≤ 0 ∧ (l'.q .publish ≠ [] → c'.publish = ⟨c.now.sec + 2, c.now.usec⟩)

theorem PubOpt.announces {s t : OSt} (n : PubOpt s t) :
    (t = s) ∨ (tvdiff s.c.now s.c.publish ≤ 0 ∧ (t.l.q .publish ≠ [] → t.c.publish = ⟨s.c.now.sec + 2, s.c.now.usec⟩) ∧
      (t.c.publish = s.c.publish ∨ t.c.publish = ⟨s.c.now.sec + 2, s.c.now.usec⟩)) := by
  cases n with
  | no => exact .inl rfl
  | @yes t h1 h2 h3 n =>
    right
    have hn := (Core.conf_eq n.conf).1
    have hp : ∀ {pre suf : List Nat} {s t : OSt}, PubL pre suf s t → t.c.publish = s.c.publish := by
      intro pre suf s t n
      induction n with
      | done => rfl
      | full => rfl
      | keep _ _ _ _ _ _ _ ih => exact ih
      | last _ _ _ _ _ _ _ ih => exact ih
      | bye _ _ _ _ _ _ ih => exact ih
    have e : (⟨t.c.now.sec + 2, t.c.now.usec⟩ : TV) = ⟨s.c.now.sec + 2, s.c.now.usec⟩ := by rw [hn]
    refine ⟨h3, fun h => ?_, ?_⟩
    · show (if _ then _ else _ : Core).publish = _
      rw [if_pos h]
      exact e
    · show (if _ then _ else _ : Core).publish = _ ∨ (if _ then _ else _ : Core).publish = _
      split
      · exact .inr e
      · exact .inl (hp n)

theorem OutMsg.announces {env : Env} {c : Core} {l : Lists} {ret : Nat} {m : Out} {to : Addr} {c' : Core} {l' : Lists}
    (n : OutMsg env c l ret m to c' l') (hu : ∀ u ∈ c.uanswers, u.to.port ≠ 5353) (i : RInv c l) (hp : l.q .probing = []) :
    Announces c l m to c' l' := by
  have base : ∀ {s1 s2 : OSt}, ROut .now ⟨c, l, {}, [], 0⟩ s1 → PubOpt s1 s2 →
      s2.l.q .probing = [] ∧
      (s2.c.publish = c.publish ∨ (tvdiff c.now c.publish ≤ 0 ∧ s2.c.publish = ⟨c.now.sec + 2, c.now.usec⟩)) ∧
      (∀ r, r ∈ l.q .publish → (.an, r) ∈ s2.m.tags → tvdiff c.now c.publish ≤ 0 ∧ (s2.l.q .publish ≠ [] →
        s2.c.publish = ⟨c.now.sec + 2, c.now.usec⟩)) := by
    intro s1 s2 n1 n2
    obtain ⟨p, q, f⟩ := n1.flow
    obtain ⟨b, g1, g2, g3, g4, g5, g6⟩ := n2.flow
    have h1 : s1.c.publish = c.publish := n1.conf.2
    have h2 : s1.c.now = c.now := (Core.conf_eq n1.conf.1).1
    have e1 : s2.l.q .probing = [] := (g3 _ (by decide)).trans ((f.other _ (by decide)).trans hp)
    have ft : s1.m.tags = q.map fun r => (.an, r) := f.tags
    have fq : l.q .now = p ++ s1.l.q .now := f.q
    have han := n2.announces
    rw [h1, h2] at han
    refine ⟨e1, ?_, fun r hr hm => ?_⟩
    · rcases han with rfl | ⟨h3, _, h4⟩
      · exact .inl h1
      · rcases h4 with h4 | h4
        · exact .inl h4
        · exact .inr ⟨h3, h4⟩
    · rcases han with rfl | ⟨h3, h4, _⟩
      · rw [ft] at hm
        obtain ⟨_, hm, e⟩ := List.mem_map.mp hm
        cases e
        have : r ∈ l.q .now := by rw [fq]; exact List.mem_append_left _ (f.sub.subset hm)
        cases i.disj _ _ _ hr this
      · exact ⟨h3, h4⟩
  cases n with
  | @unicast u us x _ seen hu' hx na =>
    refine ⟨hp, .inl rfl, fun r _ _ h => ?_⟩
    exact absurd (by simpa using h) (hu u (by rw [hu']; simp))
  | shutdown hu n1 n2 _ =>
    obtain ⟨h1, h2, h3⟩ := base n1 n2
    exact ⟨h1, h2, fun r hr hm _ => h3 r hr hm⟩
  | @normal s1 s2 _ _ _ _ hu n1 n2 _ n3 =>
    obtain ⟨h1, h2, h3⟩ := base n1 n2
    have pause : ∀ {s3 : OSt}, PauseOpt s2 s3 → s3.l.q .probing = [] ∧ s3.c.publish = s2.c.publish ∧
        s3.l.q .publish = s2.l.q .publish ∧
        ∀ r, r ∈ l.q .publish → (.an, r) ∈ s3.m.tags → (.an, r) ∈ s2.m.tags := by
      intro s3 np
      obtain ⟨z, z1, z2, z3⟩ := np.flow
      refine ⟨(z3 _ (by decide)).trans h1, np.conf.2, z3 _ (by decide), fun r hr hm => ?_⟩
      rw [z2] at hm
      rcases List.mem_append.mp hm with hm | hm
      · exact hm
      · obtain ⟨_, hm, e⟩ := List.mem_map.mp hm
        cases e
        obtain ⟨p, q, f⟩ := n1.flow
        obtain ⟨b, _, _, g3, _⟩ := n2.flow
        have e2 : s2.l.q .pause = l.q .pause := (g3 _ (by decide)).trans (f.other _ (by decide))
        have := z1.subset hm
        rw [e2] at this
        cases i.disj _ _ _ hr this
    cases n3 with
    | @answers s3 _ _ np na hr =>
      obtain ⟨k1, k2, k3, k4⟩ := pause np
      refine ⟨k1, by rw [k2]; exact h2, fun r hr hm _ => ?_⟩
      rw [k2, k3]
      refine h3 r hr (k4 r hr ?_)
      rcases na.extra _ hm with hm | ⟨e, _⟩
      · exact hm
      · cases e
    | @probes s3 s4 m0 seen np na hr nb hr2 =>
      obtain ⟨k1, _⟩ := pause np
      cases nb with
      | no => exact absurd hr hr2
      | yes h1 => exact absurd k1 h1
    | @questions s3 s4 m0 seen c2 _ _ _ np na hr nb hr2 nq ng =>
      obtain ⟨k1, k2, k3, k4⟩ := pause np
      cases nb with
      | yes h1 => exact absurd k1 h1
      | no =>
        have e1 : Core.publish c' = s3.c.publish := by
          refine (?_ : _ = _).trans (congrArg Core.publish nq.rest : Core.publish (Core.rest _) = Core.publish (Core.rest _))
          cases ng with
          | no => rfl
          | yes hc hn e =>
            obtain ⟨c1, evs, e1, s1, _⟩ := hc.gc env
            rw [e1] at e
            cases e
            exact (congrArg Core.publish s1.rest : c1.rest.publish = Core.publish (Core.rest _))
        refine ⟨k1, by rw [e1, k2]; exact h2, fun r hr' hm _ => ?_⟩
        have a := np.answering (n2.answering (n1.answering (.start c l)))
        obtain ⟨e1, e2⟩ := a.empty hr
        rw [e2] at na
        have := na.none
        subst this
        rw [nq.tags] at hm
        have hm : (Section.an, r) ∈ s3.m.tags := hm
        rw [e1] at hm
        cases hm

/-- Calls that are calm leave the time of the next announcements alone. -/
theorem Did.calm {env : Env} {o : Op} {c c' : Core} {l l' : Lists} {a : OpOut} (n : Did env o c l a c' l')
    (hc : o.calm = true) (hs : ¬ o.isSend) (hp : l.q .probing = []) : c'.publish = c.publish ∧ l'.q .probing = [] := by
  cases n with
  | setFamily => exact ⟨rfl, hp⟩
  | receiveCallback => exact ⟨rfl, hp⟩
  | sleep n =>
    cases n with
    | idle _ _ _ _ _ _ _ o => exact ⟨rfl, o _ (by decide)⟩
    | _ => exact ⟨rfl, hp⟩
  | query e n => exact ⟨(congrArg Core.publish n.rest : Core.publish (Core.rest _) = Core.publish (Core.rest _)), hp⟩
  | shared => exact ⟨rfl, hp⟩
  | stepEnd => exact ⟨rfl, hp⟩
  | send => exact absurd trivial hs
  | _ => cases hc

/-- Two announcements of records are two seconds apart, if only calm calls are between them. -/
theorem Calls.announceGap {env : Env} {d d' d'' : D Ptrs} {h : List Call} (n : Calls env d h d') (hr : Reach env d)
    {t1 t2 : TV} (hp : d.lists.q .probing = []) (ht : d.c.publish = ⟨t1.sec + 2, t1.usec⟩) (hc : ∀ k ∈ h, k.1.calm = true)
    {a : OpOut} (hs : OpSafe env d'.c d'.q.walk (.send t2)) (e : Mdns.step env (.send t2) d' = .ok (a, d'')) {r : Nat}
    (hq : r ∈ d'.lists.q .publish) (ha : Call.shows .an r (.send t2, a)) : 2000000 ≤ tvdiff t1 t2 := by
  have h1 : 2000000 ≤ tvdiff t1 d'.c.publish ∧ d'.lists.q .probing = [] := by
    refine n.induct (P := fun _ c l => 2000000 ≤ tvdiff t1 c.publish ∧ l.q .probing = []) hr ⟨?_, hp⟩ ?_
    · rw [ht]
      unfold tvdiff
      dsimp only
      omega
    · rintro h1 c l o a c' l' ⟨h2, e⟩ ⟨p1, p2⟩ hi hu hso hdid hi'
      have m : (o, a) ∈ h := by rw [e]; simp
      by_cases hsd : o.isSend
      · cases hdid with
        | @send t _ _ _ _ _ _ _ ho =>
          have an := ho.announces hu (hi.rinv.congr rfl rfl rfl) p2
          refine ⟨?_, an.probing⟩
          rcases an.timer with h3 | ⟨h3, h4⟩
          · rw [h3]
            exact p1
          · rw [h4]
            have h3 : tvdiff t c.publish ≤ 0 := h3
            unfold tvdiff at *
            dsimp only
            omega
        | _ => exact absurd hsd (by simp [Op.isSend])
      · obtain ⟨e1, e2⟩ := hdid.calm (hc _ m) hsd p2
        rw [e1]
        exact ⟨p1, e2⟩
  have r1 := n.reach hr
  have hd := r1.did hs e
  unfold Call.shows at ha
  simp only [Bool.and_eq_true, List.contains_iff_mem] at ha
  cases hd with
  | send ho =>
    have an := ho.announces r1.uni (r1.inv.rinv.congr rfl rfl rfl) h1.2
    have h3 : tvdiff t2 d'.c.publish ≤ 0 := (an.due r hq ha.2 ha.1).1
    have h4 := h1.1
    unfold tvdiff at *
    omega

end Mdns
