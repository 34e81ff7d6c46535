import Verif.Lemmas.Schedule

/-!
# The daemon comes to rest

When nothing else happens, packets sent two seconds apart empty all queues.
-/

namespace Mdns

/-- `f 0 + … + f (n - 1)`. -/
def sumTo (f : Nat → Nat) : Nat → Nat
  | 0 => 0
  | n + 1 => sumTo f n + f n

theorem sumTo_le {f g : Nat → Nat} (h : ∀ r, g r ≤ f r) : ∀ n, sumTo g n ≤ sumTo f n
  | 0 => Nat.le_refl _
  | n + 1 => Nat.add_le_add (sumTo_le h n) (h n)

theorem sumTo_lt {f g : Nat → Nat} (h : ∀ r, g r ≤ f r) {r : Nat} (hr : g r < f r) : ∀ n, r < n → sumTo g n < sumTo f n
  | 0, hn => absurd hn (Nat.not_lt_zero _)
  | n + 1, hn => by
    unfold sumTo
    have h1 := h n
    by_cases e : r = n
    · subst e
      have h2 := sumTo_le h r
      omega
    · have := sumTo_lt h hr n (by omega)
      omega

theorem sumTo_more {f : Nat → Nat} {n : Nat} (h : ∀ r, n ≤ r → f r = 0) : ∀ m, n ≤ m → sumTo f m = sumTo f n
  | 0, hm => by rw [Nat.le_zero.mp hm]
  | m + 1, hm => by
    by_cases e : n = m + 1
    · rw [e]
    · unfold sumTo
      rw [sumTo_more h m (by omega), h m (by omega)]
      cases n <;> rfl

theorem sumTo_bound {f : Nat → Nat} {b : Nat} (h : ∀ r, f r ≤ b) : ∀ n, sumTo f n ≤ b * n
  | 0 => Nat.zero_le _
  | n + 1 => by
    unfold sumTo
    have := sumTo_bound h n
    have := h n
    rw [Nat.mul_succ]
    omega

theorem sumTo_pos {f : Nat → Nat} {r : Nat} (hr : 0 < f r) : ∀ n, r < n → 0 < sumTo f n
  | 0, hn => absurd hn (Nat.not_lt_zero _)
  | n + 1, hn => by
    unfold sumTo
    by_cases e : r = n
    · subst e; omega
    · have := sumTo_pos hr n (by omega)
      omega

/-- Packets a record in a queue still waits for. -/
def Rec.weight (x : Rec) : Option W → Nat
  | none => 0
  | some .now => 1
  | some .pause => 1
  | some .publish => 1 + (3 - x.tries)
  | some .probing => 9 - x.unique

/-- Packets a record still waits for. -/
def View.weight (v : View) : Nat :=
  match v.x with
  | some x => x.weight v.at_
  | none => 0

/-- Packets to be sent. -/
def load (c : Core) (l : Lists) : Nat := c.uanswers.length + sumTo (fun r => (view c l r).weight) l.size

theorem View.weight_le (v : View) : v.weight ≤ 9 := by
  unfold View.weight Rec.weight
  split
  · split <;> omega
  · omega

theorem load_le (c : Core) (l : Lists) : load c l ≤ c.uanswers.length + 9 * l.size :=
  Nat.add_le_add_left (sumTo_bound (fun _ => View.weight_le _) _) _

/-- A label of a send step. -/
def Lab.sends (a : Lab) : Prop := a = .verify ∨ ∃ s w, a = .put s w

theorem Keep.weight {x x' : Rec} (h : Keep x x') (p : Option W) : x'.weight p = x.weight p := by
  unfold Rec.weight
  rw [h.tries, h.unique]

theorem W.answers.weight {w : W} (h : w.answers) (x : Rec) : x.weight (some w) = 1 := by
  rcases h with rfl | rfl <;> rfl

/-- The record left the queue of the ones being probed, or was taken from a queue into a packet. -/
def Moves (u v : View) (ls : List Lab) : Prop :=
  (∃ w, .put .an (some w) ∈ ls) ∨ .ns ∈ puts ls ∨ (u.at_ = some .probing ∧ v.at_ ≠ some .probing)

theorem RStep.weight {u v : View} {ls : List Lab} (h : RStep u ls v) (hl : ∀ a ∈ ls, a.sends) (hp : Placed u) :
    v.weight ≤ u.weight ∧ (Moves u v ls → v.weight < u.weight) := by
  have same : ∀ {x x' : Rec} {p : Option W} {ls : List Lab}, Keep x x' → (∀ w, .put .an (some w) ∉ ls) → .ns ∉ puts ls →
      View.weight ⟨some x', p⟩ ≤ View.weight ⟨some x, p⟩ ∧ (Moves ⟨some x, p⟩ ⟨some x', p⟩ ls →
        View.weight ⟨some x', p⟩ < View.weight ⟨some x, p⟩) := by
    intro x x' p ls h h1 h2
    refine ⟨Nat.le_of_eq (h.weight p), ?_⟩
    rintro (⟨w, m⟩ | m | ⟨m1, m2⟩)
    · exact absurd m (h1 w)
    · exact absurd m h2
    · exact absurd m1 m2
  have less : ∀ {v w : View} {ls : List Lab}, w.weight < v.weight → w.weight ≤ v.weight ∧ (Moves v w ls → w.weight < v.weight) :=
    fun h => ⟨Nat.le_of_lt h, fun _ => h⟩
  cases h with
  | touch h => exact same h (by simp) (by simp [puts])
  | skip hw => exact less (by show _ < Rec.weight _ _; rw [hw.weight]; exact Nat.one_pos)
  | shared => exact absurd (hl .new (by simp)) (by simp [Lab.sends])
  | unique => exact absurd (hl .new (by simp)) (by simp [Lab.sends])
  | edit => exact absurd (hl .set (by simp)) (by simp [Lab.sends])
  | publish => exact absurd (hl .set (by simp)) (by simp [Lab.sends])
  | queue => exact absurd (hl .ask (by simp)) (by simp [Lab.sends])
  | bye => exact absurd (hl .bye (by simp)) (by simp [Lab.sends])
  | drop => exact absurd (hl .free (by simp)) (by simp [Lab.sends])
  | sent hw => exact less (by show _ < Rec.weight _ _; rw [hw.weight]; exact Nat.one_pos)
  | @sentBye x w hw =>
    refine less (show 0 < x.weight (some w) from ?_)
    cases w with
    | probing => exact absurd rfl hw
    | now => exact Nat.one_pos
    | pause => exact Nat.one_pos
    | publish => show 0 < 1 + _; omega
  | announce ht h4 hr hu htr => refine less (show 1 + _ < 1 + _ from ?_); omega
  | announceLast => refine less (show 0 < 1 + _ from ?_); omega
  | verify hu hr hu' ht => refine less (show 1 + _ < 9 - _ from ?_); omega
  | propose hu hr hu' ht => refine less (show 9 - _ < 9 - _ from ?_); omega
  | unicast h => exact same h (by simp) (by simp [puts])
  | extra => exact same ⟨rfl, rfl, rfl⟩ (by simp) (by simp [puts])

theorem RSteps.weight {u v : View} {ls : List Lab} (h : RSteps u ls v) (hl : ∀ a ∈ ls, a.sends) (hp : Placed u) :
    v.weight ≤ u.weight ∧ (Moves u v ls → v.weight < u.weight) := by
  induction h with
  | refl v =>
    refine ⟨Nat.le_refl _, ?_⟩
    rintro (⟨w, m⟩ | m | ⟨m1, m2⟩)
    · cases m
    · cases m
    · exact absurd m1 m2
  | @step u v w a b h n ih =>
    have h1 := h.weight (fun x m => hl x (List.mem_append_left _ m)) hp
    have h2 := ih (fun x m => hl x (List.mem_append_right _ m)) (h.placed hp)
    refine ⟨Nat.le_trans h2.1 h1.1, ?_⟩
    have key : Moves u v a ∨ Moves v w b → w.weight < u.weight := by
      rintro (m | m)
      · exact Nat.lt_of_le_of_lt h2.1 (h1.2 m)
      · exact Nat.lt_of_lt_of_le (h2.2 m) h1.1
    rintro (⟨x, m⟩ | m | ⟨m1, m2⟩)
    · rcases List.mem_append.mp m with m | m
      · exact key (.inl (.inl ⟨x, m⟩))
      · exact key (.inr (.inl ⟨x, m⟩))
    · rw [puts_append] at m
      rcases List.mem_append.mp m with m | m
      · exact key (.inl (.inr (.inl m)))
      · exact key (.inr (.inr (.inl m)))
    · by_cases e : v.at_ = some .probing
      · exact key (.inr (.inr (.inr ⟨e, m2⟩)))
      · exact key (.inl (.inr (.inr ⟨m1, e⟩)))

theorem sendLab.sends {b : Bool} {r : Nat} {a : Lab} (h : sendLab b r a) : a.sends := by
  rcases h with h | ⟨s, w, h, _⟩
  · exact .inl h
  · exact .inr ⟨s, w, h⟩

/-- The records together, when a packet is made. -/
theorem OutMsg.weights {env : Env} {c : Core} {l : Lists} {ret : Nat} {m : Out} {to : Addr} {c' : Core} {l' : Lists}
    (n : OutMsg env c l ret m to c' l') (hu : ∀ u ∈ c.uanswers, u.to.port ≠ 5353) (i : RInv c l) (i' : RInv c' l') :
    sumTo (fun r => (view c' l' r).weight) l'.size ≤ sumTo (fun r => (view c l r).weight) l.size ∧
      ((∃ r, ((.an, r) ∈ m.tags ∧ (to.port == 5353) = true) ∨ (.ns, r) ∈ m.tags ∨
          (r ∈ l.q .probing ∧ r ∉ l'.q .probing)) →
        sumTo (fun r => (view c' l' r).weight) l'.size < sumTo (fun r => (view c l r).weight) l.size) := by
  have hr := n.run hu
  have e : sumTo (fun r => (view c l r).weight) l.size = sumTo (fun r => (view c l r).weight) l'.size := by
    refine (sumTo_more (fun r hr => ?_) _ hr.size).symm
    have : c.recs r = none := by
      cases hx : c.recs r with
      | none => rfl
      | some x => exact absurd (i.bound r (by rw [hx]; rfl)) (Nat.not_lt.mpr hr)
    rw [view_none i this]
    rfl
  rw [e]
  have pt : ∀ r, (view c' l' r).weight ≤ (view c l r).weight := by
    intro r
    obtain ⟨ls, hs, _, hp⟩ := hr.steps r
    exact (hs.weight (fun a m => (hp a m).sends) (view_placed i r)).1
  refine ⟨sumTo_le pt _, ?_⟩
  rintro ⟨r, h⟩
  have hlt : (view c' l' r).weight < (view c l r).weight := by
    obtain ⟨ls, hs, ht, hp⟩ := hr.steps r
    refine (hs.weight (fun a m => (hp a m).sends) (view_placed i r)).2 ?_
    rcases h with ⟨h, h5⟩ | h | ⟨h, h'⟩
    · left
      have : .an ∈ puts ls := by rw [ht]; exact mem_tagsOf.mpr h
      unfold puts at this
      obtain ⟨b, hb, e1⟩ := List.mem_filterMap.mp this
      cases b with
      | put s w =>
        simp only [Option.some.injEq] at e1
        subst e1
        obtain h | ⟨s, w', e2, h⟩ := hp _ hb
        · cases h
        · cases e2
          rw [h5] at h
          cases w with
          | none => simp at h
          | some w => exact ⟨w, hb⟩
      | _ => simp at e1
    · right; left
      rw [ht]
      exact mem_tagsOf.mpr h
    · right; right
      exact ⟨(mem_place i _).mp h, fun e => h' ((mem_place i' _).mpr e)⟩
  refine sumTo_lt pt hlt _ ?_
  refine Nat.lt_of_lt_of_le (Nat.lt_of_not_le fun hle => ?_) hr.size
  have : c.recs r = none := by
    cases hx : c.recs r with
    | none => rfl
    | some x => exact absurd (i.bound r (by rw [hx]; rfl)) (Nat.not_lt.mpr hle)
  rw [view_none i this] at hlt
  exact absurd hlt (Nat.not_lt_zero _)

/-- All pauses are over at the time `t`. -/
def Rested (c : Core) (t : TV) : Prop := tvdiff t c.pause ≤ 0 ∧ tvdiff t c.probe ≤ 0 ∧ tvdiff t c.publish ≤ 0

/-- Nothing waits to be sent. -/
def Idle (c : Core) (l : Lists) : Prop := c.uanswers = [] ∧ ∀ w, l.q w = []

theorem load_zero {c : Core} {l : Lists} (h : RInv c l) : load c l = 0 → Idle c l := by
  intro e
  unfold load at e
  refine ⟨List.eq_nil_of_length_eq_zero (by omega), fun w => ?_⟩
  cases hq : l.q w with
  | nil => rfl
  | cons r rest =>
    exfalso
    have hm : r ∈ l.q w := by rw [hq]; simp
    obtain ⟨x, hx⟩ := h.qrec hm
    have h1 := h.bound r (by rw [hx]; rfl)
    have h2 : 0 < (view c l r).weight := by
      rw [view_mem h hx hm]
      show 0 < x.weight (some w)
      cases w with
      | now => exact Nat.one_pos
      | pause => exact Nat.one_pos
      | publish => show 0 < 1 + _; omega
      | probing =>
        have := (h.probing r x hx).mp hm
        unfold Rec.Probing at *
        show 0 < 9 - _
        omega
    have := sumTo_pos (f := fun r => (view c l r).weight) h2 _ h1
    omega

/-- Every packet is progress, unless nothing waits. -/
theorem OutMsg.load {env : Env} {c : Core} {l : Lists} {ret : Nat} {m : Out} {to : Addr} {c' : Core} {l' : Lists}
    (n : OutMsg env c l ret m to c' l') (hu : ∀ u ∈ c.uanswers, u.to.port ≠ 5353) (i : RInv c l) (i' : RInv c' l')
    (hs : c.shutdown = false) (hd : c.disco = false) (hf : FitsAlone c) (ht : Rested c c.now) :
    Mdns.load c' l' < Mdns.load c l ∨ Idle c l := by
  have hw := n.weights hu i i'
  unfold Mdns.load
  have dec : c'.uanswers.length ≤ c.uanswers.length → (∃ r, ((.an, r) ∈ m.tags ∧ (to.port == 5353) = true) ∨ (.ns, r) ∈ m.tags ∨
          (r ∈ l.q .probing ∧ r ∉ l'.q .probing)) → c'.uanswers.length + sumTo (fun r => (view c' l' r).weight) l'.size <
      c.uanswers.length + sumTo (fun r => (view c l r).weight) l.size := by
    intro h1 h2
    have := hw.2 h2
    omega
  cases n with
  | @unicast u us x _ seen hu hx na =>
    left
    have h1 := hw.1
    have h2 : ({ c with uanswers := us, recs := upd c.recs u.r (some { x with lastSent := c.now }) } : Core).uanswers = us := rfl
    rw [h2, hu, List.length_cons]
    omega
  | shutdown _ _ _ h => rw [hs] at h; cases h
  | @normal s1 s2 _ _ _ _ hu n1 n2 hs' n3 =>
    have hlen : c'.uanswers.length ≤ c.uanswers.length := by
      have h1 := n3.uans
      have h2 := n2.uanswers (n1.uanswers hu)
      rw [h2] at h1
      cases e : c'.uanswers with
      | nil => exact Nat.zero_le _
      | cons u us => exact absurd (h1 u (by rw [e]; simp)) (by simp)
    have go := dec hlen
    obtain ⟨p, q, f⟩ := n1.flow
    have fq : l.q .now = p ++ s1.l.q .now := f.q
    have ft : s1.m.tags = q.map fun r => (.an, r) := f.tags
    have fr : s1.ret = 0 + q.length := f.ret
    have fa := f.all hd
    obtain ⟨b, g1, g2, g3, g4, g5, g6⟩ := n2.flow
    have e1 : s2.l.q .now = s1.l.q .now := g3 _ (by decide)
    have e2 : s2.l.q .pause = s1.l.q .pause := g3 _ (by decide)
    have e3 : s1.l.q .pause = l.q .pause := f.other _ (by decide)
    have e5 : s1.l.q .probing = l.q .probing := f.other _ (by decide)
    have e6 : s2.l.q .probing = s1.l.q .probing := g3 _ (by decide)
    have e7 : s1.l.q .publish = l.q .publish := f.other _ (by decide)
    have hc2 : s2.c.conf = c.conf := n2.conf.trans n1.conf.1
    obtain ⟨cn, cf, cp, cs, cd⟩ := Core.conf_eq hc2
    -- nothing was sent: the queues for answers are empty
    have quiet : ∀ s3, PauseOpt s2 s3 → s3.ret = 0 → s3.c.probe = c.probe ∧ s3.c.now = c.now ∧
        s3.l.q .probing = l.q .probing ∧ l.q .now = [] ∧ l.q .pause = [] ∧ (l.q .probing = [] → l.q .publish = []) := by
      intro s3 np h0
      have hle : s2.ret = 0 ∧ (l.q .pause = []) ∧ s3.c.probe = c.probe ∧ s3.c.now = c.now ∧ s3.l.q .probing = l.q .probing := by
        have hpr : s3.c.probe = c.probe := (n1.slow.trans (n2.slow.trans np.slow)).probe
        have hnw : s3.c.now = c.now := (Core.conf_eq np.conf.1).1.trans cn
        cases np with
        | no hi hn =>
          refine ⟨h0, ?_, hpr, hnw, e6.trans e5⟩
          rw [← e3, ← e2]
          refine Classical.byContradiction fun h => hn ⟨h, ?_⟩
          rw [cn, cp]
          exact ht.1
        | yes h1 h2 np =>
          obtain ⟨p', q', f'⟩ := np.flow
          have fa' := f'.all (cd.trans hd)
          have fr' := f'.ret
          have hq' : q' = [] := List.eq_nil_of_length_eq_zero (by omega)
          rw [hq'] at fa'
          have i3 := f'.idle fa'.symm
          have hb : b = [] := List.eq_nil_of_length_eq_zero (by omega)
          have hq : q = [] := List.eq_nil_of_length_eq_zero (by omega)
          rw [hq] at fa
          have i1 := f.idle fa.symm
          have i2 := g6 hb
          subst i3
          refine ⟨h0, ?_, hpr, hnw, e6.trans e5⟩
          rw [← e3, ← e2]
          rcases f'.stop with h | ⟨a, rs, x, ha, hx, hn⟩
          · exact h
          · exfalso
            have k := n2.made (n1.made (c0 := c) ⟨Kept.refl c, .start ..⟩)
            obtain ⟨x0, h3, h4, _⟩ := k.kept.2 a x hx
            apply hn
            rw [i2, i1, cf, h4]
            exact hf a x0 h3
      obtain ⟨h2, h3, h4, h5, h6⟩ := hle
      have hq : q = [] := List.eq_nil_of_length_eq_zero (by omega)
      rw [hq] at fa
      have i1 := f.idle fa.symm
      refine ⟨h4, h5, h6, ?_, h3, fun hpn => ?_⟩
      · rcases f.stop with h | ⟨a, _, x, ha, hx, hn⟩
        · rw [fq, ← fa, h]
          rfl
        · rw [i1] at hx hn
          exact absurd (hf a x hx) hn
      · cases n2 with
        | no _ hn =>
          refine Classical.byContradiction fun h => hn ⟨e5.trans hpn, by rw [e7]; exact h, ?_⟩
          subst i1
          exact ht.2.2
        | @yes t k1 k2 k3 n2 =>
          obtain ⟨p', q', k', f'⟩ := n2.flow
          have hret : t.ret = s1.ret + p'.length := f'.ret
          have h2 : t.ret = 0 := h2
          have hp' : p' = [] := List.eq_nil_of_length_eq_zero (by omega)
          have i2 := f'.idle hp'
          have hsuf := f'.suf
          rw [hp'] at hsuf
          subst i2
          rw [← e7, hsuf]
          rcases f'.stop with h | ⟨a, rs, x, ha, hx, hn⟩
          · rw [h]; rfl
          · rw [i1] at hx hn
            exact absurd (hf a x hx) hn
    cases n3 with
    | @answers s3 _ _ np na hr =>
      left
      have a := np.answering (n2.answering (n1.answering (.start c l)))
      have hne : s3.m.tags ≠ [] := by
        intro e
        have h1 := a.ret
        rw [e] at h1
        exact hr h1
      refine go ?_
      cases ht : s3.m.tags with
      | nil => exact absurd ht hne
      | cons t ts =>
        have h1 := a.tags t (by rw [ht]; simp)
        obtain ⟨xs, ex⟩ := na.tags
        refine ⟨t.2, .inl ⟨?_, mcast_multi _⟩⟩
        rw [ex, ht]
        refine List.mem_append_left _ ?_
        rw [← h1]
        simp
    | @probes s3 s4 m0 seen np na hr nb hr2 =>
      left
      obtain ⟨rs, _, e3, er⟩ := nb.tags
      have e3 : s4.m.tags = m0.tags ++ rs.map fun r => (.ns, r) := e3
      have er : s4.ret = s3.ret + rs.length := er
      refine go ?_
      cases rs with
      | nil => exact absurd (er.trans hr) hr2
      | cons q qs => exact ⟨q, .inr (.inl (by rw [e3]; simp))⟩
    | @questions s3 s4 m0 seen _ _ _ _ np na hr nb hr2 nq ng =>
      obtain ⟨k1, k2, k3, k4, k5, k6⟩ := quiet s3 np hr
      cases hp : l.q .probing with
      | nil =>
        right
        refine ⟨hu, fun w => ?_⟩
        cases w with
        | probing => exact hp
        | now => exact k4
        | pause => exact k5
        | publish => exact k6 hp
      | cons r rest =>
        left
        refine go ⟨r, .inr (.inr ⟨by rw [hp]; simp, ?_⟩)⟩
        cases nb with
        | no _ hn =>
          refine absurd ⟨?_, ?_⟩ hn
          · show s3.l.q .probing ≠ []
            rw [k3, hp]
            simp
          · show tvdiff s3.c.now s3.c.probe ≤ 0
            rw [k1, k2]
            exact ht.2.1
        | @yes u t h1 h2 na' nb' =>
          have hret : t.ret = u.ret + (u.l.q .probing).length := nb'.tags.2
          have hr2 : t.ret = 0 := hr2
          have hz : u.l.q .probing = [] := List.eq_nil_of_length_eq_zero (by omega)
          have : t.l = u.l := by
            rw [hz] at nb'
            cases nb'
            rfl
          show r ∉ t.l.q .probing
          rw [this, hz]
          simp

theorem idle_load {c : Core} {l : Lists} (h : Idle c l) : load c l = 0 := by
  unfold load
  rw [h.1]
  have : ∀ n, sumTo (fun r => (view c l r).weight) n = 0 := by
    intro n
    have hz : ∀ r, (view c l r).weight ≤ 0 := by
      intro r
      have : l.place r = none := place_eq fun w => by simp [h.2 w]
      unfold view View.weight
      rw [this]
      simp only
      split <;> exact Nat.le_refl _
    have := sumTo_bound hz n
    omega
  rw [this]
  rfl

/-- The time of the next announcements. -/
theorem OutMsg.publish {env : Env} {c : Core} {l : Lists} {ret : Nat} {m : Out} {to : Addr} {c' : Core} {l' : Lists}
    (n : OutMsg env c l ret m to c' l') :
    c'.publish = c.publish ∨ c'.publish = c.now ∨ c'.publish = ⟨c.now.sec + 2, c.now.usec⟩ := by
  have pub : ∀ {s t : OSt}, PubOpt s t → t.c.publish = s.c.publish ∨ t.c.publish = ⟨s.c.now.sec + 2, s.c.now.usec⟩ := by
    intro s t n
    cases n with
    | no => exact .inl rfl
    | @yes t _ _ _ n =>
      have hp : ∀ {pre suf : List Nat} {s t : OSt}, PubL pre suf s t → t.c.publish = s.c.publish := by
        intro pre suf s t n
        induction n with
        | done => rfl
        | full => rfl
        | keep _ _ _ _ _ _ _ ih => exact ih
        | last _ _ _ _ _ _ _ ih => exact ih
        | bye _ _ _ _ _ _ ih => exact ih
      have hn := (Core.conf_eq n.conf).1
      show (if _ then _ else _ : Core).publish = _ ∨ (if _ then _ else _ : Core).publish = _
      split
      · right
        show (⟨t.c.now.sec + 2, t.c.now.usec⟩ : TV) = _
        rw [hn]
      · exact .inl (hp n)
  have probe : ∀ {s t : OSt}, ProbeOpt s t → t.c.publish = s.c.publish ∨ t.c.publish = s.c.now := by
    intro s t n
    cases n with
    | no => exact .inl rfl
    | @yes u t _ _ n n' =>
      have ha : ∀ {pre suf : List Nat} {s t : OSt}, ProbeA pre suf s t → t.c.publish = s.c.publish ∨ t.c.publish = s.c.now := by
        intro pre suf s t n
        induction n with
        | done => exact .inl rfl
        | verified _ _ _ _ _ ih => exact .inr (ih.elim id id)
        | ask _ _ _ _ _ ih => exact ih
      show (if _ then _ else _ : Core).publish = _ ∨ (if _ then _ else _ : Core).publish = _
      have e : (if t.ret ≠ 0 then { t.c with probe := ⟨t.c.now.sec, t.c.now.usec + 250000⟩ } else t.c).publish =
        t.c.publish := by split <;> rfl
      rw [e, n'.conf.2]
      exact ha n
  cases n with
  | unicast => exact .inl rfl
  | @shutdown s1 s2 hu n1 n2 _ =>
    have h1 : s1.c.publish = c.publish := n1.conf.2
    have h2 : s1.c.now = c.now := (Core.conf_eq n1.conf.1).1
    rcases pub n2 with h | h
    · exact .inl (h.trans h1)
    · exact .inr (.inr (by rw [h, h2]))
  | @normal s1 s2 _ _ _ _ hu n1 n2 _ n3 =>
    have h1 : s1.c.publish = c.publish := n1.conf.2
    have h2 : s1.c.now = c.now := (Core.conf_eq n1.conf.1).1
    have h3 : s2.c.now = c.now := (Core.conf_eq n2.conf).1.trans h2
    have base : s2.c.publish = c.publish ∨ s2.c.publish = ⟨c.now.sec + 2, c.now.usec⟩ := by
      rcases pub n2 with h | h
      · exact .inl (h.trans h1)
      · exact .inr (by rw [h, h2])
    have fin : ∀ {x : TV}, x = s2.c.publish ∨ x = c.now → x = c.publish ∨ x = c.now ∨ x = ⟨c.now.sec + 2, c.now.usec⟩ := by
      rintro x (h | h)
      · rcases base with b | b
        · exact .inl (h.trans b)
        · exact .inr (.inr (h.trans b))
      · exact .inr (.inl h)
    cases n3 with
    | answers np _ _ => exact fin (.inl np.conf.2)
    | @probes s3 s4 _ _ np _ _ nb _ =>
      have h4 : s3.c.now = c.now := (Core.conf_eq np.conf.1).1.trans h3
      refine fin ?_
      rcases probe nb with h | h
      · exact .inl (h.trans np.conf.2)
      · exact .inr (h.trans h4)
    | @questions s3 s4 m0 seen _ _ _ _ np na hr nb hr2 nq ng =>
      have h4 : s3.c.now = c.now := (Core.conf_eq np.conf.1).1.trans h3
      refine fin ?_
      have e1 : Core.publish c' = s4.c.publish := by
        refine (?_ : _ = _).trans (congrArg Core.publish nq.rest : Core.publish (Core.rest _) = Core.publish (Core.rest _))
        cases ng with
        | no => rfl
        | yes hc hn e =>
          obtain ⟨c1, evs, e1, s1, _⟩ := hc.gc env
          rw [e1] at e
          cases e
          exact (congrArg Core.publish s1.rest : c1.rest.publish = Core.publish (Core.rest _))
      rcases probe nb with h | h
      · exact .inl (e1.trans (h.trans np.conf.2))
      · exact .inr (e1.trans (h.trans h4))

theorem sumTo_zap {f : Nat → Nat} {r : Nat} : ∀ n, r < n → f r + sumTo (fun s => if s = r then 0 else f s) n ≤ sumTo f n
  | 0, h => absurd h (Nat.not_lt_zero _)
  | n + 1, h => by
    unfold sumTo
    by_cases e : r = n
    · subst e
      have : sumTo (fun s => if s = r then 0 else f s) r ≤ sumTo f r := sumTo_le (fun s => by split <;> omega) r
      simp only [if_true]
      omega
    · have := sumTo_zap (f := f) (r := r) n (by omega)
      simp only [if_neg (Ne.symm e)]
      omega

theorem sum_le_sumTo {n : Nat} : ∀ {f : Nat → Nat} {rs : List Nat}, rs.Nodup → (∀ r ∈ rs, r < n) → (rs.map f).sum ≤ sumTo f n
  | _, [], _, _ => Nat.zero_le _
  | f, r :: rs, hn, hb => by
    obtain ⟨h1, h2⟩ := List.nodup_cons.mp hn
    have h3 := sum_le_sumTo (f := fun s => if s = r then 0 else f s) h2 fun s m => hb s (List.mem_cons_of_mem _ m)
    have h4 := sumTo_zap (f := f) n (hb r (by simp))
    have h5 : rs.map (fun s => if s = r then 0 else f s) = rs.map f := by
      refine List.map_congr_left fun s m => if_neg fun (e : s = r) => h1 (e ▸ m)
    rw [h5] at h3
    rw [List.map_cons, List.sum_cons]
    omega

/-- The bound for waiting answers is smaller. -/
theorem waiting_le {c : Core} {l : Lists} (h : RInv c l) : waiting c l ≤ load c l := by
  have hb : ∀ w, ∀ r ∈ l.q w, r < l.size := fun w r m => h.bound r (h.qlive w r m)
  have hn : (l.q .now ++ l.q .pause ++ l.q .publish).Nodup := by
    rw [List.nodup_append, List.nodup_append]
    refine ⟨⟨h.nodup _, h.nodup _, ?_⟩, h.nodup _, ?_⟩
    · rintro r m _ m' rfl
      cases h.disj _ _ _ m m'
    · rintro r m _ m' rfl
      rcases List.mem_append.mp m with m | m <;> cases h.disj _ _ _ m m'
  have hs := sum_le_sumTo (n := l.size) (f := fun r => (view c l r).weight) hn fun r m => by
    rcases List.mem_append.mp m with m | m
    · rcases List.mem_append.mp m with m | m <;> exact hb _ r m
    · exact hb _ r m
  rw [List.map_append, List.map_append, List.sum_append, List.sum_append] at hs
  have one : ∀ {w : W}, w.answers → ((l.q w).map fun r => (view c l r).weight).sum = (l.q w).length := by
    intro w hw
    have : (l.q w).map (fun r => (view c l r).weight) = (l.q w).map fun _ => 1 := by
      refine List.map_congr_left fun r m => ?_
      obtain ⟨x, hx⟩ := h.qrec m
      rw [view_mem h hx m]
      exact hw.weight x
    rw [this]
    generalize l.q w = rs
    induction rs with
    | nil => rfl
    | cons r rs ih => simp only [List.map_cons, List.sum_cons, List.length_cons, ih]; omega
  have pub : c.todo (l.q .publish) ≤ ((l.q .publish).map fun r => (view c l r).weight).sum := by
    unfold Core.todo
    have : ∀ rs : List Nat, (∀ r ∈ rs, r ∈ l.q .publish) → (rs.map c.retries).sum ≤ (rs.map fun r => (view c l r).weight).sum := by
      intro rs
      induction rs with
      | nil => exact fun _ => Nat.le_refl _
      | cons r rs ih =>
        intro hm
        have h1 := ih fun s m => hm s (List.mem_cons_of_mem _ m)
        obtain ⟨x, hx⟩ := h.qrec (hm r (by simp))
        have h2 : c.retries r ≤ (view c l r).weight := by
          rw [view_mem h hx (hm r (by simp))]
          unfold Core.retries
          rw [hx]
          show 4 - _ ≤ 1 + (3 - _)
          omega
        simp only [List.map_cons, List.sum_cons]
        omega
    exact this _ fun _ m => m
  rw [one (.inl rfl), one (.inr rfl)] at hs
  unfold waiting load
  omega

theorem Rested.after {c c' : Core} {t t' : TV} (h : Rested c t') (ht : 2000000 ≤ tvdiff t t') (h1 : c'.pause = c.pause)
    (h2 : c'.probe = c.probe ∨ c'.probe = ⟨t.sec, t.usec + 250000⟩)
    (h3 : c'.publish = c.publish ∨ c'.publish = t ∨ c'.publish = ⟨t.sec + 2, t.usec⟩) : Rested c' t' := by
  refine ⟨by rw [h1]; exact h.1, ?_, ?_⟩
  · rcases h2 with h2 | h2
    · rw [h2]; exact h.2.1
    · rw [h2]
      unfold tvdiff at *
      dsimp only
      omega
  · rcases h3 with h3 | h3 | h3
    · rw [h3]; exact h.2.2
    · rw [h3]
      unfold tvdiff at *
      omega
    · rw [h3]
      unfold tvdiff at *
      dsimp only
      omega

/-- Enough packets, each two seconds after the one before, leave nothing waiting. -/
theorem Calls.settle {env : Env} {d d' : D Ptrs} {h : List Call} (n : Calls env d h d') (hr : Reach env d)
    (hp : Paced h) (ht : ∀ k ∈ h, ∀ t, k.1 = .send t → Rested d.c t) (hs : d.c.shutdown = false) (hd : d.c.disco = false)
    (hf : FitsAlone d.c) (hl : load d.c d.lists ≤ h.length) : Idle d'.c d'.lists := by
  have H := n.induct (P := fun h1 c l => c.shutdown = false ∧ c.disco = false ∧ FitsAlone c ∧
      (∀ h2, h = h1 ++ h2 → ∀ k ∈ h2, ∀ t, k.1 = .send t → Rested c t) ∧
      (load c l + h1.length ≤ load d.c d.lists ∨ load c l = 0)) hr
    ⟨hs, hd, hf, fun h2 e => by rw [List.nil_append] at e; exact e ▸ ht, .inl (Nat.le_refl _)⟩ ?_
  · refine load_zero (n.reach hr).inv.rinv ?_
    rcases H.2.2.2.2 with h | h <;> omega
  · rintro h1 c l o a c' l' ⟨h2, e⟩ ⟨p1, p2, p3, p4, p5⟩ hi hu hso hdid hi'
    obtain ⟨t, rfl⟩ := hp.1 (o, a) (by rw [e]; simp)
    cases hdid with
    | @send _ ret m to _ _ _ _ ho =>
      have hnow : Rested c t := p4 ((.send t, .sent ret m to) :: h2) e (.send t, .sent ret m to) (by simp) t rfl
      have hi0 : RInv { c with now := t } l := hi.rinv.congr rfl rfl rfl
      obtain ⟨cn, cf, cp, cs, cd⟩ := Core.conf_eq ho.conf
      refine ⟨cs.trans p1, cd.trans p2, ho.kept.fits cf p3, fun h3 e3 k mk t' ek => ?_, ?_⟩
      · have e4 : h2 = h3 := by
          rw [e] at e3
          simpa using e3
        subst e4
        refine Rested.after (p4 ((.send t, .sent ret m to) :: h2) e k (List.mem_cons_of_mem _ mk) t' ek) (t := t) ?_ cp ?_ ho.publish
        · have := hp.2
          rw [e, List.pairwise_append] at this
          exact (List.pairwise_cons.mp this.2.1).1 k mk t t' rfl ek
        · rcases ho.probe with h | h
          · exact .inr h.2.1
          · exact .inl h.2
      · have hload := ho.load hu hi0 hi'.rinv p1 p2 p3 hnow
        have hw := (ho.weights hu hi0 hi'.rinv).1
        have hl : load ({ c with now := t } : Core) l = load c l := rfl
        rw [List.length_append, List.length_singleton]
        rcases hload with h | h
        · rw [hl] at h
          omega
        · right
          have : load c l = 0 := idle_load ⟨h.1, h.2⟩
          have hua : Core.uanswers c' = [] := by
            have := ho.uans
            rw [h.1] at this
            cases e : Core.uanswers c' with
            | nil => rfl
            | cons u us => exact absurd (this u (by rw [e]; simp)) (by simp)
          unfold load at *
          rw [hua]
          have hw : _ ≤ sumTo (fun r => (view c l r).weight) l.size := hw
          simp
          omega

end Mdns
