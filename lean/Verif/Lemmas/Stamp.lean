import Verif.Lemmas.Lives

/-!
# When a record was last sent

A record put in a packet as an answer has the time of the packet, and keeps it until it is in
another answer.
-/

namespace Mdns

/-- The records answered with so far have the current time. -/
def OSt.Dated (s : OSt) : Prop := ∀ r x, (Section.an, r) ∈ s.m.tags → s.c.recs r = some x → x.lastSent = s.c.now

/-- A change of one record that dates it. -/
theorem OSt.Dated.set {s : OSt} (h : s.Dated) {c' : Core} {m' : Out} {l' : Lists} {seen : List Nat} {ret r0 : Nat}
    {y : Option Rec} (hr : c'.recs = upd s.c.recs r0 y) (hn : c'.now = s.c.now)
    (hy : ∀ x, y = some x → x.lastSent = s.c.now) (hm : ∀ r, (Section.an, r) ∈ m'.tags → r = r0 ∨ (Section.an, r) ∈ s.m.tags) :
    OSt.Dated ⟨c', l', m', seen, ret⟩ := by
  intro r x m hx
  show x.lastSent = c'.now
  have hx : c'.recs r = some x := hx
  rw [hn]
  rw [hr] at hx
  by_cases e : r = r0
  · subst e
    rw [upd_same] at hx
    exact hy x hx
  · rw [upd_other _ _ _ _ e] at hx
    rcases hm r m with e' | m'
    · exact absurd e' e
    · exact h r x m' hx

theorem mem_put {m : Out} {s : Section} {r0 : Nat} {a : Answer} {cls r : Nat} (h : (Section.an, r) ∈ (m.put s r0 a cls).tags) :
    r = r0 ∨ (Section.an, r) ∈ m.tags := by
  rw [put_tags] at h
  rcases List.mem_append.mp h with h | h
  · exact .inr h
  · simp at h
    exact .inl h.2

theorem ROut.dated {w : W} {s t : OSt} (n : ROut w s t) (h : s.Dated) : t.Dated := by
  induction n with
  | empty => exact h
  | full => exact h
  | skip _ _ _ _ _ _ ih => exact ih h
  | send _ _ hx _ _ _ _ ih => exact ih (h.set rfl rfl (by rintro _ ⟨⟩; rfl) fun _ m => mem_put m)
  | bye _ _ hx _ _ _ _ ih => exact ih (h.set (y := none) rfl rfl (by rintro _ ⟨⟩) fun _ m => mem_put m)

theorem PubL.dated {pre suf : List Nat} {s t : OSt} (n : PubL pre suf s t) (h : s.Dated) : t.Dated := by
  induction n with
  | done => exact h
  | full => exact h
  | keep _ _ hx _ _ _ _ ih => exact ih (h.set rfl rfl (by rintro _ ⟨⟩; rfl) fun _ m => mem_put m)
  | last _ _ hx _ _ _ _ ih => exact ih (h.set rfl rfl (by rintro _ ⟨⟩; rfl) fun _ m => mem_put m)
  | bye _ _ hx _ _ _ ih => exact ih (h.set (y := none) rfl rfl (by rintro _ ⟨⟩) fun _ m => mem_put m)

theorem ProbeA.dated {pre suf : List Nat} {s t : OSt} (n : ProbeA pre suf s t) (h : s.Dated) : t.Dated := by
  induction n with
  | done => exact h
  | @verified pre suf s t r x _ _ hx _ _ ih =>
    refine ih fun r' y m hy => ?_
    have hy : upd s.c.recs r _ r' = some y := hy
    by_cases e : r' = r
    · subst e
      rw [upd_same] at hy
      cases hy
      exact h r' x m hx
    · rw [upd_other _ _ _ _ e] at hy
      exact h r' y m hy
  | ask _ _ hx _ _ ih =>
    exact ih (h.set rfl rfl (by rintro _ ⟨⟩; rfl) fun _ m => .inr (by simpa [Out.add] using m))

theorem ProbeB.dated {pre suf : List Nat} {s t : OSt} (n : ProbeB pre suf s t) (h : s.Dated) : t.Dated := by
  induction n with
  | done => exact h
  | propose _ _ hx _ _ ih => exact ih (h.set rfl rfl (by rintro _ ⟨⟩; rfl) fun _ m => mem_put m)

theorem OSt.Dated.congr {s t : OSt} (h : s.Dated) (hr : t.c.recs = s.c.recs) (hn : t.c.now = s.c.now)
    (hm : ∀ r, (Section.an, r) ∈ t.m.tags → (Section.an, r) ∈ s.m.tags) : t.Dated := by
  intro r x m hx
  rw [hn]
  exact h r x (hm r m) (hr ▸ hx)

theorem PubOpt.dated {s t : OSt} (n : PubOpt s t) (h : s.Dated) : t.Dated := by
  cases n with
  | no => exact h
  | yes _ _ _ n =>
    refine (n.dated h).congr ?_ ?_ fun _ m => m
    · show (if _ then _ else _ : Core).recs = _
      split <;> rfl
    · show (if _ then _ else _ : Core).now = _
      split <;> rfl

theorem PauseOpt.dated {s t : OSt} (n : PauseOpt s t) (h : s.Dated) : t.Dated := by
  cases n with
  | no => exact h
  | yes _ _ n => exact n.dated h

theorem ProbeOpt.dated {s t : OSt} (n : ProbeOpt s t) (h : s.Dated) : t.Dated := by
  cases n with
  | no => exact h
  | yes _ _ n n' =>
    refine (n'.dated (n.dated h)).congr ?_ ?_ fun _ m => m
    · show (if _ then _ else _ : Core).recs = _
      split <;> rfl
    · show (if _ then _ else _ : Core).now = _
      split <;> rfl

theorem AddL.answers {c : Core} {J : Nat → Prop} {m m' : Out} {s s' : List Nat} (n : AddL c J m s m' s') {r : Nat}
    (h : (Section.an, r) ∈ m'.tags) : (Section.an, r) ∈ m.tags := by
  induction n with
  | nil => exact h
  | add _ _ _ _ _ ih =>
    rw [put_tags] at h
    rcases List.mem_append.mp h with h | h
    · exact ih h
    · simp at h

theorem OutRest.dated {env : Env} {s : OSt} {ret : Nat} {m : Out} {c : Core} {l : Lists} (n : OutRest env s ret m c l)
    (h : s.Dated) : ∀ r x, (Section.an, r) ∈ m.tags → c.recs r = some x → x.lastSent = c.now := by
  cases n with
  | answers np na _ _ => exact fun r x m hx => np.dated h r x (na.answers m) hx
  | @probes s1 s2 m seen np na _ nb _ =>
    exact nb.dated ((np.dated h).congr (t := { s1 with m := { m with qr := false, aa := false } }) rfl rfl
      fun r m => na.answers m)
  | @questions s1 s2 m _ ret m' c3 c4 np na _ nb _ nq ng =>
    have := nb.dated ((np.dated h).congr (t := { s1 with m := { m with qr := false, aa := false } }) rfl rfl
      fun r m => na.answers m)
    intro r x m hx
    have e3 : c3.recs = s2.c.recs := (congrArg Core.recs nq.rest : c3.rest.recs = s2.c.rest.recs)
    have e4 : c3.now = s2.c.now := (congrArg Core.now nq.rest : c3.rest.now = s2.c.rest.now)
    have e5 : c.now = c3.now := by
      cases ng with
      | no => rfl
      | yes hc hn e =>
        obtain ⟨c1, evs, e1, s1, _⟩ := hc.gc env
        rw [e1] at e
        cases e
        exact (congrArg Core.now s1.rest : c1.rest.now = c3.rest.now)
    rw [e5, e4]
    rw [ng.recs, e3] at hx
    rw [nq.tags] at m
    exact this r x m hx

/-- A record put in the answers of a packet was last sent then. -/
theorem OutMsg.dated {env : Env} {c : Core} {l : Lists} {ret : Nat} {m : Out} {to : Addr} {c' : Core} {l' : Lists}
    (n : OutMsg env c l ret m to c' l') :
    ∀ r x, (Section.an, r) ∈ m.tags → c'.recs r = some x → x.lastSent = c.now := by
  have h0 : OSt.Dated ⟨c, l, {}, [], 0⟩ := by
    intro r x m
    cases m
  have hc := (Core.conf_eq n.conf).1
  cases n with
  | @unicast u us x m seen hu hx na =>
    intro r y mr hy
    have hy : upd c.recs u.r _ r = some y := hy
    have := na.answers mr
    rw [put_tags] at this
    simp [Out.add] at this
    subst this
    rw [upd_same] at hy
    cases hy
    rfl
  | shutdown _ n1 n2 _ =>
    intro r x m hx
    rw [← hc]
    exact n2.dated (n1.dated h0) r x m hx
  | normal _ n1 n2 _ n3 =>
    intro r x m hx
    rw [← hc]
    exact n3.dated (n2.dated (n1.dated h0)) r x m hx

/-! ### It stays so -/

/-- Last sent at the given time. -/
def Last (T : TV) (v : View) : Prop := ∀ x, v.x = some x → ¬ x.Probing ∧ x.lastSent = T

theorem RStep.last {T : TV} {u v : View} {ls : List Lab} (h : RStep u ls v) (hl : .new ∉ ls) (ha : .an ∉ puts ls)
    (q : Last T u) : Last T v := by
  have pr : ∀ {x : Rec}, x.Probing → u.x = some x → Last T v := fun hp hx => absurd hp (q _ hx).1
  cases h with
  | touch _ hp => exact pr hp rfl
  | skip => intro y hy; cases hy; exact q _ rfl
  | shared => simp at hl
  | unique => simp at hl
  | edit hp => exact pr hp rfl
  | publish hp h =>
    intro y hy; cases hy
    refine ⟨fun h' => hp ?_, h.sent.trans (q _ rfl).2⟩
    unfold Rec.Probing at *
    rw [h.unique] at h'
    exact h'
  | queue => intro y hy; cases hy; exact q _ rfl
  | bye hp => intro y hy; cases hy; exact ⟨hp, (q _ rfl).2⟩
  | drop => intro y hy; cases hy
  | sent => simp [puts] at ha
  | sentBye => intro y hy; cases hy
  | announce => simp [puts] at ha
  | announceLast => simp [puts] at ha
  | verify hu => exact pr (show _ ≠ 0 ∧ _ < 5 by omega) rfl
  | propose hu => exact pr (show _ ≠ 0 ∧ _ < 5 by omega) rfl
  | unicast => simp [puts] at ha
  | extra => intro y hy; cases hy; exact q _ rfl

theorem RSteps.last {T : TV} {u v : View} {ls : List Lab} (h : RSteps u ls v) (hl : .new ∉ ls) (ha : .an ∉ puts ls)
    (q : Last T u) : Last T v := by
  induction h with
  | refl => exact q
  | step h _ ih =>
    rw [puts_append] at ha
    exact ih (fun m => hl (List.mem_append_right _ m)) (fun m => ha (List.mem_append_right _ m))
      (h.last (fun m => hl (List.mem_append_left _ m)) (fun m => ha (List.mem_append_left _ m)) q)

/-- As long as a record is in no answer, its time stays. -/
theorem Calls.last {env : Env} {d d' : D Ptrs} {h : List Call} (n : Calls env d h d') (hr : Reach env d) {r : Nat} {T : TV}
    (hsz : r < d.lists.size) (ha : ∀ k ∈ h, (Section.an, r) ∉ k.2.tags) (hq : Last T (view d.c d.lists r)) :
    Last T (view d'.c d'.lists r) := by
  refine (n.induct (P := fun h c l => Last T (view c l r) ∧ r < l.size) hr ⟨hq, hsz⟩ ?_).1
  rintro h1 c l o a c' l' ⟨h2, e⟩ ⟨p, p3⟩ hi hu hso hdid hi'
  have hrun := hdid.run hi hu
  obtain ⟨ls, hs, ht, hm⟩ := hrun.steps r
  have hn : Lab.new ∉ ls := fun m => by
    have := (Op.may_new (hm _ m)).1
    omega
  refine ⟨hs.last hn (fun m => ?_) p, Nat.lt_of_lt_of_le p3 hrun.size⟩
  rw [ht] at m
  exact ha (o, a) (by rw [e]; simp) (mem_tagsOf.mp m)

/-! ### Answers for everyone are not of records being probed -/

/-- Not being probed. -/
def Verified (v : View) : Prop := ∀ x, v.x = some x → ¬ x.Probing

theorem RStep.verified {u v : View} {ls : List Lab} (h : RStep u ls v) (hl : .new ∉ ls) (q : Verified u) : Verified v := by
  cases h with
  | touch _ hp => exact absurd hp (q _ rfl)
  | skip => intro y hy; cases hy; exact q _ rfl
  | shared => simp at hl
  | unique => simp at hl
  | edit hp => exact absurd hp (q _ rfl)
  | publish hp h => intro y hy; cases hy; unfold Rec.Probing at *; rw [h.unique]; exact hp
  | queue => intro y hy; cases hy; exact q _ rfl
  | bye hp => intro y hy; cases hy; exact hp
  | drop => intro y hy; cases hy
  | sent _ _ h => intro y hy; cases hy; have := q _ rfl; unfold Rec.Probing at *; rw [h.unique]; exact this
  | sentBye => intro y hy; cases hy
  | announce _ _ _ hu => intro y hy; cases hy; have := q _ rfl; unfold Rec.Probing at *; rw [hu]; exact this
  | announceLast _ _ _ hu => intro y hy; cases hy; have := q _ rfl; unfold Rec.Probing at *; rw [hu]; exact this
  | verify _ _ hu => intro y hy; cases hy; simp [Rec.Probing, hu]
  | propose hu => exact absurd (show _ ≠ 0 ∧ _ < 5 by omega) (q _ rfl)
  | unicast h => intro y hy; cases hy; have := q _ rfl; unfold Rec.Probing at *; rw [h.unique]; exact this
  | extra => intro y hy; cases hy; exact q _ rfl

theorem RSteps.verified {u v : View} {ls : List Lab} (h : RSteps u ls v) (hl : .new ∉ ls) (q : Verified u) : Verified v := by
  induction h with
  | refl => exact q
  | step h _ ih => exact ih (fun m => hl (List.mem_append_right _ m)) (h.verified (fun m => hl (List.mem_append_left _ m)) q)

theorem RStep.answered {u v : View} {ls : List Lab} (h : RStep u ls v) (p : Placed u) (ha : .an ∈ puts ls)
    (hw : ∀ w, .put .an w ∈ ls → w.isSome = true) : Verified v := by
  cases h with
  | sent hw' _ h =>
    intro y hy; cases hy
    have := p _ rfl
    unfold Rec.Probing at *
    rw [h.unique, this]
    rcases hw' with rfl | rfl <;> simp
  | sentBye => intro y hy; cases hy
  | announce _ _ _ hu =>
    intro y hy; cases hy
    have := p _ rfl
    unfold Rec.Probing at *
    rw [hu, this]
    simp
  | announceLast _ _ _ hu =>
    intro y hy; cases hy
    have := p _ rfl
    unfold Rec.Probing at *
    rw [hu, this]
    simp
  | unicast => have := hw none (by simp); cases this
  | _ => simp [puts] at ha

theorem RSteps.answered {u v : View} {ls : List Lab} (h : RSteps u ls v) (p : Placed u) (hl : .new ∉ ls) (ha : .an ∈ puts ls)
    (hw : ∀ w, .put .an w ∈ ls → w.isSome = true) : Verified v := by
  induction h with
  | refl => cases ha
  | step h n ih =>
    rw [puts_append] at ha
    rcases List.mem_append.mp ha with ha | ha
    · exact n.verified (fun m => hl (List.mem_append_right _ m))
        (h.answered p ha fun w m => hw w (List.mem_append_left _ m))
    · exact ih (h.placed p) (fun m => hl (List.mem_append_right _ m)) ha fun w m => hw w (List.mem_append_right _ m)

/-- A record in an answer for everyone was last sent then. -/
theorem Did.last {env : Env} {now : TV} {c c' : Core} {l l' : Lists} {a : OpOut} {r : Nat}
    (n : Did env (.send now) c l a c' l') (hi : DInv c l) (hu : ∀ u ∈ c.uanswers, u.to.port ≠ 5353)
    (hs : Call.shows .an r (.send now, a) = true) : Last now (view c' l' r) ∧ r < l'.size := by
  have hrun := n.run hi hu
  obtain ⟨ls, hst, ht, hm⟩ := hrun.steps r
  simp only [Call.shows, Bool.and_eq_true, List.contains_iff_mem] at hs
  have hn : Lab.new ∉ ls := fun m => by
    cases n with
    | send n =>
      rcases hm _ m with h | ⟨s, w', h, h'⟩ <;> cases h
  have hsz : r < l.size := by
    cases hx : c.recs r with
    | some x => exact hi.rinv.bound r (by rw [hx]; rfl)
    | none =>
      have hp : l.place r = none := place_eq fun w => by
        simp only [reduceCtorEq, iff_false]
        intro m
        obtain ⟨x, hx'⟩ := hi.rinv.qrec m
        rw [hx] at hx'
        cases hx'
      have := (hst.none (by unfold view; rw [hx, hp]) hn).1
      rw [this] at ht
      have := mem_tagsOf.mpr hs.2
      rw [← ht] at this
      cases this
  refine ⟨?_, Nat.lt_of_lt_of_le hsz hrun.size⟩
  have hv : Verified (view c' l' r) := by
    refine hst.answered (view_placed hi.rinv r) hn (by rw [ht]; exact mem_tagsOf.mpr hs.2) fun w m => ?_
    cases n with
    | send n =>
      rcases hm _ m with h | ⟨s, w', h, h'⟩
      · cases h
      · cases h
        rw [h' rfl]
        exact hs.1
  intro x hx
  refine ⟨hv x hx, ?_⟩
  cases n with
  | send n => exact n.dated r x hs.2 hx

end Mdns
