import Verif.Lemmas.History

/-!
# The stages of a record's life, over histories
-/

namespace Mdns

/-! ### Counting -/

theorem shown_append (s : Section) (r : Nat) (a b : List Call) : shown s r (a ++ b) = shown s r a + shown s r b := by
  simp [shown]

theorem shown_one (s : Section) (r : Nat) (k : Call) : shown s r [k] = if k.shows s r then 1 else 0 := by
  unfold shown
  rw [List.filter_cons]
  split <;> simp

theorem mcast_multi (f : Family) : ((mcast f).port == 5353) = true := by cases f <;> rfl

theorem tagsOf_map (s : Section) (rs : List Nat) (r : Nat) :
    tagsOf (rs.map fun q => (s, q)) r = List.replicate (rs.count r) s := by
  induction rs with
  | nil => rfl
  | cons q rs ih =>
    have e : tagsOf ((q :: rs).map fun q => (s, q)) r = tagsOf [(s, q)] r ++ tagsOf (rs.map fun q => (s, q)) r :=
      tagsOf_append [(s, q)] _ r
    rw [e, ih, List.count_cons]
    unfold tagsOf
    by_cases h : q = r
    · subst h
      simp [List.replicate_succ]
    · simp [h]

theorem mem_tagsOf {ts : List (Section × Nat)} {r : Nat} {s : Section} : s ∈ tagsOf ts r ↔ (s, r) ∈ ts := by
  unfold tagsOf
  simp only [List.mem_map, List.mem_filter, beq_iff_eq, Prod.exists, exists_and_right, exists_eq_right]

/-- Only probes are in the authority section, once each, and they are sent to everyone. -/
theorem Did.ns {env : Env} {o : Op} {c c' : Core} {l l' : Lists} {a : OpOut} (n : Did env o c l a c' l') (r : Nat) :
    (tagsOf a.tags r).count .ns = if Call.shows .ns r (o, a) then 1 else 0 := by
  have e : ∀ x : OpOut, x.tags = [] → (tagsOf x.tags r).count .ns = if Call.shows .ns r (o, x) then 1 else 0 := by
    intro x h
    have : Call.shows .ns r (o, x) = false := by simp [Call.shows, h]
    rw [h, this]
    rfl
  cases n with
  | @send now _ _ _ _ _ _ _ n =>
    have none : ∀ {ret : Nat} {m : Out} {to : Addr}, (∀ t ∈ m.tags, t.1 ≠ .ns) →
        (tagsOf (OpOut.sent ret m to).tags r).count .ns = if Call.shows .ns r (.send now, .sent ret m to) then 1 else 0 := by
      intro ret m to h
      have h1 : (Section.ns, r) ∉ m.tags := fun m => h _ m rfl
      have : Call.shows .ns r (.send now, .sent ret m to) = false := by simp [Call.shows, OpOut.tags, h1]
      rw [this, if_neg (by simp), List.count_eq_zero_of_not_mem]
      exact fun m => h1 (mem_tagsOf.mp m)
    cases n.kind with
    | answers as xs ht =>
      refine none fun t m => ?_
      rw [ht] at m
      rcases List.mem_append.mp m with m | m
      all_goals obtain ⟨_, _, rfl⟩ := List.mem_map.mp m; simp
    | probes rs hn ht _ _ _ hto =>
      show (tagsOf (Out.tags _) r).count .ns = _
      rw [ht, tagsOf_map, List.count_replicate_self]
      unfold Call.shows OpOut.tags OpOut.multi
      simp only [ht, hto, mcast_multi, Bool.true_and]
      by_cases hr : r ∈ rs
      · rw [List.Nodup.count hn, if_pos hr]
        simp [hr]
      · rw [List.count_eq_zero_of_not_mem hr]
        simp [hr]
    | questions ht =>
      refine none fun t m => ?_
      rw [ht] at m
      cases m
    | unicast u us xs _ ht =>
      refine none fun t m => ?_
      rw [ht] at m
      rcases List.mem_cons.mp m with rfl | m
      · simp
      · obtain ⟨_, _, rfl⟩ := List.mem_map.mp m
        simp
  | _ => exact e _ rfl

/-- No packet has both answers and probes. -/
theorem Did.an_ns {env : Env} {o : Op} {c c' : Core} {l l' : Lists} {a : OpOut} (n : Did env o c l a c' l') {r r' : Nat}
    (h : (Section.an, r) ∈ a.tags) : (Section.ns, r') ∉ a.tags := by
  cases n with
  | send n =>
    intro m
    unfold OpOut.tags at h m
    cases n.kind with
    | answers as xs ht =>
      simp only [ht] at m
      rcases List.mem_append.mp m with m | m
      all_goals obtain ⟨_, _, e⟩ := List.mem_map.mp m; cases e
    | probes rs hn ht _ _ _ hto =>
      simp only [ht] at h
      obtain ⟨_, _, e⟩ := List.mem_map.mp h
      cases e
    | questions ht =>
      simp only [ht] at m
      cases m
    | unicast u us xs _ ht =>
      simp only [ht] at m
      rcases List.mem_cons.mp m with e | m
      · cases e
      · obtain ⟨_, _, e⟩ := List.mem_map.mp m
        cases e
  | _ => cases h

/-! ### Probing -/

/-- A record is being probed exactly when it is in the queue of such records. -/
def Placed (v : View) : Prop := ∀ x, v.x = some x → (x.Probing ↔ v.at_ = some .probing)

theorem view_placed {c : Core} {l : Lists} (h : RInv c l) (r : Nat) : Placed (view c l r) := by
  intro x hx
  exact (h.probing r x hx).symm.trans (mem_place h _)

/-- After `n` probes. -/
def Probed (n : Nat) (v : View) : Prop :=
  ∀ x, v.x = some x → x.unique ≠ 0 → x.unique ≤ 5 ∧ (x.unique < 5 → x.unique = n + 1) ∧ (x.unique = 5 → n = 3)

/-- The record, if it is there, is a unique one. -/
def Unq (v : View) : Prop := ∀ x, v.x = some x → x.unique ≠ 0

theorem RStep.placed {u v : View} {ls : List Lab} (h : RStep u ls v) (p : Placed u) : Placed v := by
  cases h with
  | touch h => intro x hx; cases hx; have := p _ rfl; unfold Rec.Probing at *; rw [h.unique]; exact this
  | skip hw =>
    intro x hx; cases hx; have := p _ rfl
    rcases hw with rfl | rfl <;> simpa using this
  | shared hu => intro x hx; cases hx; simp [Rec.Probing, hu]
  | unique hu => intro x hx; cases hx; simp [Rec.Probing, hu]
  | edit hp h => intro x hx; cases hx; have := p _ rfl; unfold Rec.Probing at *; rw [h.unique]; exact this
  | publish hp h => intro x hx; cases hx; unfold Rec.Probing at *; rw [h.unique]; simpa using hp
  | queue hp _ hw => intro x hx; cases hx; rcases hw with rfl | rfl <;> simpa using hp
  | bye hp => intro x hx; cases hx; have := p _ rfl; exact this
  | drop => intro x hx; cases hx
  | sent hw _ h =>
    intro x hx; cases hx; have := p _ rfl; unfold Rec.Probing at *; rw [h.unique]
    rcases hw with rfl | rfl <;> simpa using this
  | sentBye => intro x hx; cases hx
  | announce _ _ _ hu =>
    intro x hx; cases hx; have := p _ rfl; unfold Rec.Probing at *; rw [hu]; exact this
  | announceLast _ _ _ hu =>
    intro x hx; cases hx; have := p _ rfl; unfold Rec.Probing at *; rw [hu]; simpa using this
  | verify _ _ hu' => intro x hx; cases hx; simp [Rec.Probing, hu']
  | propose hu _ hu' => intro x hx; cases hx; simp [Rec.Probing, hu']; omega
  | unicast h => intro x hx; cases hx; have := p _ rfl; unfold Rec.Probing at *; rw [h.unique]; exact this
  | extra => exact p

theorem RStep.probed {u v : View} {ls : List Lab} (h : RStep u ls v) {n : Nat} (p : Probed n u)
    (hn : .new ∈ ls → n = 0) : Probed (n + (puts ls).count .ns) v := by
  cases h with
  | touch h => intro x hx; cases hx; rw [h.unique]; exact p _ rfl
  | skip hw => intro x hx; cases hx; exact p _ rfl
  | shared hu => intro x hx; cases hx; intro h; exact absurd hu h
  | unique hu => intro x hx; cases hx; intro h; rw [hn (by simp)]; simp [hu, puts]
  | edit hp h => intro x hx; cases hx; rw [h.unique]; exact p _ rfl
  | publish hp h => intro x hx; cases hx; rw [h.unique]; exact p _ rfl
  | queue hp _ hw => intro x hx; cases hx; exact p _ rfl
  | bye hp => intro x hx; cases hx; have := p _ rfl; exact this
  | drop => intro x hx; cases hx
  | sent hw _ h => intro x hx; cases hx; rw [h.unique]; exact p _ rfl
  | sentBye => intro x hx; cases hx
  | announce _ _ _ hu => intro x hx; cases hx; rw [hu]; exact p _ rfl
  | announceLast _ _ _ hu => intro x hx; cases hx; rw [hu]; exact p _ rfl
  | verify hu _ hu' =>
    intro x hx; cases hx; intro _
    have := p _ rfl (by omega)
    simp [puts]
    omega
  | propose hu _ hu' =>
    intro x hx; cases hx; intro _
    have := p _ rfl (by omega)
    simp [puts]
    omega
  | unicast h => intro x hx; cases hx; rw [h.unique]; exact p _ rfl
  | extra => intro x hx; cases hx; exact p _ rfl

theorem RStep.unq {u v : View} {ls : List Lab} (h : RStep u ls v) (p : Unq u) (hn : .new ∉ ls) : Unq v := by
  cases h with
  | touch h => intro x hx; cases hx; rw [h.unique]; exact p _ rfl
  | skip hw => intro x hx; cases hx; exact p _ rfl
  | shared hu => simp at hn
  | unique hu => simp at hn
  | edit hp h => intro x hx; cases hx; rw [h.unique]; exact p _ rfl
  | publish hp h => intro x hx; cases hx; rw [h.unique]; exact p _ rfl
  | queue hp _ hw => intro x hx; cases hx; exact p _ rfl
  | bye hp => intro x hx; cases hx; have := p _ rfl; exact this
  | drop => intro x hx; cases hx
  | sent hw _ h => intro x hx; cases hx; rw [h.unique]; exact p _ rfl
  | sentBye => intro x hx; cases hx
  | announce _ _ _ hu => intro x hx; cases hx; rw [hu]; exact p _ rfl
  | announceLast _ _ _ hu => intro x hx; cases hx; rw [hu]; exact p _ rfl
  | verify _ _ hu' => intro x hx; cases hx; omega
  | propose hu _ hu' => intro x hx; cases hx; omega
  | unicast h => intro x hx; cases hx; rw [h.unique]; exact p _ rfl
  | extra => exact p

theorem RSteps.placed {u v : View} {ls : List Lab} (h : RSteps u ls v) (p : Placed u) : Placed v := by
  induction h with
  | refl => exact p
  | step h _ ih => exact ih (h.placed p)

theorem RSteps.probed {u v : View} {ls : List Lab} (h : RSteps u ls v) {n : Nat} (p : Probed n u)
    (hn : .new ∈ ls → n = 0 ∧ puts ls = []) : Probed (n + (puts ls).count .ns) v := by
  induction h generalizing n with
  | refl => exact p
  | @step u v w a b h _ ih =>
    rw [puts_append] at hn ⊢
    rw [List.count_append, ← Nat.add_assoc]
    refine ih (h.probed p fun m => (hn (by simp [m])).1) fun m => ?_
    obtain ⟨h1, h2⟩ := hn (by simp [m])
    obtain ⟨h2, h3⟩ := List.append_eq_nil_iff.mp h2
    rw [h1, h2, h3]
    simp

theorem RSteps.unq {u v : View} {ls : List Lab} (h : RSteps u ls v) (p : Unq u) (hn : .new ∉ ls) : Unq v := by
  induction h with
  | refl => exact p
  | step h _ ih =>
    simp only [List.mem_append, not_or] at hn
    exact ih (h.unq p hn.1) hn.2

/-- An answer for everyone comes after the probes. -/
theorem RStep.answer {u v : View} {ls : List Lab} (h : RStep u ls v) {n : Nat} (p : Placed u) (q : Probed n u)
    (hu : Unq u) {w : W} (hm : .put .an (some w) ∈ ls) : n = 3 := by
  have key : ∀ {x : Rec} {w : W}, u = ⟨some x, some w⟩ → w ≠ .probing → n = 3 := by
    rintro x w rfl hw
    have h1 := p x rfl
    have h2 := q x rfl (hu x rfl)
    have h3 := hu x rfl
    have h4 : ¬ x.Probing := fun h => hw (by simpa using h1.mp h)
    unfold Rec.Probing at h4
    omega
  cases h with
  | sent hw => exact key rfl (by rcases hw with rfl | rfl <;> decide)
  | sentBye hw => exact key rfl hw
  | announce => exact key rfl (by decide)
  | announceLast => exact key rfl (by decide)
  | _ => simp at hm

theorem RSteps.answer {u v : View} {ls : List Lab} (h : RSteps u ls v) {n : Nat} (p : Placed u) (q : Probed n u)
    (hu : Unq u) (hn : .new ∉ ls) (hs : .ns ∉ puts ls) {w : W} (hm : .put .an (some w) ∈ ls) : n = 3 := by
  induction h with
  | refl => cases hm
  | @step u v _ a b h _ ih =>
    simp only [List.mem_append, not_or] at hn
    rw [puts_append] at hs
    simp only [List.mem_append, not_or] at hs
    rcases List.mem_append.mp hm with hm | hm
    · exact h.answer p q hu hm
    · refine ih (h.placed p) ?_ (h.unq hu hn.1) hn.2 hs.2 hm
      have := h.probed q fun m => absurd m hn.1
      rwa [List.count_eq_zero_of_not_mem hs.1] at this

/-! ### Over histories -/

/-- A new record has a new number. -/
theorem Op.may_new {n : Nat} {o : Op} {a : OpOut} {r : Nat} (h : o.may n a r .new) : n ≤ r ∧ ¬ o.isSend := by
  cases o <;> simp_all [Op.may, recvLab, sendLab, addrLab, Op.isSend]

theorem Did.tags {env : Env} {o : Op} {c c' : Core} {l l' : Lists} {a : OpOut} (n : Did env o c l a c' l')
    (h : ¬ o.isSend) : a.tags = [] := by
  cases n with
  | send => exact absurd trivial h
  | _ => rfl

theorem Did.handle {env : Env} {o : Op} {c c' : Core} {l l' : Lists} {r : Nat} (n : Did env o c l (.handle r) c' l') :
    r = l.size ∧ l'.size = l.size + 1 := by
  cases n with
  | shared => exact ⟨rfl, rfl⟩
  | unique => exact ⟨rfl, rfl⟩

theorem RStep.le3 {u v : View} {ls : List Lab} (h : RStep u ls v) {n : Nat} (p : Probed n u) (hn : n ≤ 3) :
    n + (puts ls).count .ns ≤ 3 := by
  cases h with
  | propose hu =>
    have := p _ rfl (by omega)
    simp [puts]
    omega
  | _ => simpa [puts] using hn

theorem RSteps.le3 {u v : View} {ls : List Lab} (h : RSteps u ls v) {n : Nat} (p : Probed n u) (hn : n ≤ 3)
    (hnew : .new ∈ ls → n = 0 ∧ puts ls = []) : n + (puts ls).count .ns ≤ 3 := by
  induction h generalizing n with
  | refl => exact hn
  | @step u v w a b h _ ih =>
    rw [puts_append] at hnew ⊢
    rw [List.count_append, ← Nat.add_assoc]
    refine ih (h.probed p fun m => (hnew (by simp [m])).1) (h.le3 p hn) fun m => ?_
    obtain ⟨h1, h2⟩ := hnew (by simp [m])
    obtain ⟨h2, h3⟩ := List.append_eq_nil_iff.mp h2
    rw [h1, h2, h3]
    simp

/-- What a history says about a record. -/
structure Past (r : Nat) (h : List Call) (c : Core) (l : Lists) : Prop where
  fresh : l.size ≤ r → (∀ k ∈ h, tagsOf k.2.tags r = [] ∧ k.2 ≠ .handle r) ∧ c.recs r = none
  probed : Probed (shown .ns r h) (view c l r)
  le : shown .ns r h ≤ 3
  unq : MadeUnique r h → Unq (view c l r)

theorem shown_zero {s : Section} {r : Nat} {h : List Call} (e : ∀ k ∈ h, tagsOf k.2.tags r = []) : shown s r h = 0 := by
  unfold shown
  rw [List.length_eq_zero_iff, List.filter_eq_nil_iff]
  intro k m
  have := e k m
  unfold Call.shows
  have : (s, r) ∉ k.2.tags := by
    rw [← mem_tagsOf, this]
    simp
  simp [this]

theorem MadeUnique.append {r : Nat} {h : List Call} {k : Call} (m : MadeUnique r (h ++ [k])) :
    MadeUnique r h ∨ ∃ n t ttl cf, k = (.unique n t ttl cf, .handle r) := by
  obtain ⟨n, t, ttl, cf, m⟩ := m
  rcases List.mem_append.mp m with m | m
  · exact .inl ⟨n, t, ttl, cf, m⟩
  · exact .inr ⟨n, t, ttl, cf, (List.mem_singleton.mp m).symm⟩

theorem Past.handle {r : Nat} {h : List Call} {c : Core} {l : Lists} (k : Past r h c l) (m : MadeUnique r h) :
    r < l.size := by
  obtain ⟨_, _, _, _, m⟩ := m
  refine Nat.lt_of_not_le fun hs => ((k.fresh hs).1 _ m).2 rfl

/-- The steps of a call on one record. -/
theorem Past.steps {env : Env} {r : Nat} {h : List Call} {c c' : Core} {l l' : Lists} {o : Op} {a : OpOut}
    (k : Past r h c l) (hi : DInv c l) (hu : ∀ u ∈ c.uanswers, u.to.port ≠ 5353) (n : Did env o c l a c' l') :
    ∃ ls, RSteps (view c l r) ls (view c' l' r) ∧ puts ls = tagsOf a.tags r ∧ (∀ b ∈ ls, o.may l.size a r b) ∧
      (.new ∈ ls → shown .ns r h = 0 ∧ puts ls = []) := by
  obtain ⟨ls, hs, hp, hm⟩ := (n.run hi hu).steps r
  refine ⟨ls, hs, hp, hm, fun m => ?_⟩
  obtain ⟨h1, h2⟩ := Op.may_new (hm _ m)
  refine ⟨shown_zero fun k' m' => ((k.fresh h1).1 k' m').1, ?_⟩
  rw [hp, n.tags h2]
  rfl

theorem RSteps.none {u v : View} {ls : List Lab} (h : RSteps u ls v) (hu : u = ⟨none, none⟩) (hn : .new ∉ ls) :
    ls = [] ∧ v = ⟨none, none⟩ := by
  induction h with
  | refl => exact ⟨rfl, hu⟩
  | step h _ ih =>
    subst hu
    cases h with
    | shared => simp at hn
    | unique => simp at hn

theorem view_none {c : Core} {l : Lists} (h : RInv c l) {r : Nat} (hr : c.recs r = none) : view c l r = ⟨none, none⟩ := by
  refine view_eq hr fun w => ?_
  simp only [reduceCtorEq, iff_false]
  intro m
  have := h.qlive w r m
  rw [hr] at this
  cases this

theorem Past.call {env : Env} {r : Nat} {h : List Call} {c c' : Core} {l l' : Lists} {o : Op} {a : OpOut}
    (k : Past r h c l) (hi : DInv c l) (hu : ∀ u ∈ c.uanswers, u.to.port ≠ 5353) (n : Did env o c l a c' l')
    (hi' : DInv c' l') : Past r (h ++ [(o, a)]) c' l' := by
  obtain ⟨ls, hs, hp, hm, hnew⟩ := k.steps hi hu n
  have hsz := (n.run hi hu).size
  have hc : (puts ls).count .ns = shown .ns r [(o, a)] := by rw [hp, n.ns, shown_one]
  constructor
  · intro hr
    have hr0 := Nat.le_trans hsz hr
    obtain ⟨h1, h2⟩ := k.fresh hr0
    have hx' : c'.recs r = none := by
      cases hx : c'.recs r with
      | none => rfl
      | some x => exact absurd (hi'.rinv.bound r (by rw [hx]; rfl)) (Nat.not_lt.mpr hr)
    have hv := view_none hi.rinv h2
    refine ⟨fun k' m => ?_, hx'⟩
    rcases List.mem_append.mp m with m | m
    · exact h1 k' m
    · rw [List.mem_singleton] at m
      subst m
      constructor
      · rw [← hp]
        by_cases hn : Lab.new ∈ ls
        · exact (hnew hn).2
        · rw [hv] at hs
          rw [(hs.none rfl hn).1]
          rfl
      · rintro e
        have e : a = .handle r := e
        subst e
        have := n.handle
        omega
  · rw [shown_append, ← hc]
    exact hs.probed k.probed hnew
  · rw [shown_append, ← hc]
    exact hs.le3 k.probed k.le hnew
  · intro m
    rcases m.append with m | ⟨_, _, _, _, e⟩
    · refine hs.unq (k.unq m) fun hn => ?_
      have h1 := (Op.may_new (hm _ hn)).1
      have h2 := k.handle m
      omega
    · cases e
      cases n with
      | unique =>
        intro x hx
        have hx : upd _ _ _ _ = some x := hx
        rw [upd_same] at hx
        cases hx
        simp [uniqueRec]

theorem Hist.past {env : Env} {h : List Call} {d : D Ptrs} (n : Hist env h d) (r : Nat) : Past r h d.c d.lists := by
  refine n.induct (P := fun h c l => Past r h c l) (fun cls frame now => ?_) fun k hi hu _ n hi' => k.call hi hu n hi'
  refine ⟨fun _ => ⟨by simp, rfl⟩, fun x hx => (by cases hx), Nat.zero_le _, ?_⟩
  rintro ⟨_, _, _, _, m⟩
  cases m

/-- A record made by `mdnsd_unique` is in answers for everyone only after exactly three packets
with probes for it. -/
theorem Hist.answered {env : Env} {h : List Call} {d d' : D Ptrs} {o : Op} {a : OpOut} (n : Hist env h d)
    (hs : OpSafe env d.c d.q.walk o) (e : Mdns.step env o d = .ok (a, d')) {r : Nat} (hr : MadeUnique r h)
    (hsh : Call.shows .an r (o, a)) : shown .ns r h = 3 := by
  have k := n.past r
  have hd := n.reach.did hs e
  obtain ⟨ls, hst, hp, hm, hnew⟩ := k.steps n.reach.inv n.reach.uni hd
  unfold Call.shows at hsh
  simp only [Bool.and_eq_true, List.contains_iff_mem] at hsh
  obtain ⟨h1, h2⟩ := hsh
  have hn : Lab.new ∉ ls := by
    intro hn
    have h1 := (Op.may_new (hm _ hn)).1
    have h2 := k.handle hr
    omega
  have hns : .ns ∉ puts ls := by
    rw [hp]
    exact fun m => hd.an_ns h2 (mem_tagsOf.mp m)
  have : .an ∈ puts ls := by rw [hp]; exact mem_tagsOf.mpr h2
  unfold puts at this
  obtain ⟨b, hb, e1⟩ := List.mem_filterMap.mp this
  cases b with
  | put s w =>
    simp only [Option.some.injEq] at e1
    subst e1
    have := hm _ hb
    cases o with
    | send now =>
      obtain h | ⟨s, w', e2, h⟩ := this
      · cases h
      · cases e2
        rw [h1] at h
        cases w with
        | none => simp at h
        | some w => exact hst.answer (view_placed n.reach.inv.rinv r) k.probed (k.unq hr) hn hns hb
    | _ => simp [Op.may, recvLab, addrLab] at this
  | _ => simp at e1

end Mdns
