import Verif.Lemmas.Settle

/-!
# Announcements and goodbyes of one record
-/

namespace Mdns

/-- The label of an answer for everyone. -/
def Lab.isAn : Lab → Bool
  | .put .an (some _) => true
  | _ => false

/-- Answers for everyone. -/
def anns (ls : List Lab) : Nat := ls.countP Lab.isAn

theorem anns_append (a b : List Lab) : anns (a ++ b) = anns a + anns b := List.countP_append ..

theorem anns_puts {ls : List Lab} (h : ∀ w, .put .an w ∈ ls → w.isSome = true) : anns ls = (puts ls).count .an := by
  induction ls with
  | nil => rfl
  | cons a ls ih =>
    have e1 : anns (a :: ls) = anns [a] + anns ls := anns_append [a] ls
    have e2 : puts (a :: ls) = puts [a] ++ puts ls := puts_append [a] ls
    rw [e1, e2, List.count_append, ih fun w m => h w (List.mem_cons_of_mem _ m)]
    congr 1
    cases a with
    | put s w =>
      cases s with
      | an =>
        cases w with
        | none => exact absurd (h none (by simp)) (by simp)
        | some w => rfl
      | _ => rfl
    | _ => rfl

theorem anns_zero {ls : List Lab} (h : ∀ w, .put .an w ∈ ls → w.isSome = false) : anns ls = 0 := by
  unfold anns
  rw [List.countP_eq_zero]
  intro a m
  cases a with
  | put s w =>
    cases s with
    | an =>
      cases w with
      | none => simp [Lab.isAn]
      | some w => exact absurd (h _ m) (by simp)
    | _ => simp [Lab.isAn]
  | _ => simp [Lab.isAn]

theorem count_tags {ts : List (Section × Nat)} (h : (ts.filter fun t => t.1 = .an).Nodup) (r : Nat) :
    (tagsOf ts r).count .an = if (Section.an, r) ∈ ts then 1 else 0 := by
  have e : (tagsOf ts r).count .an = (ts.filter fun t => t.1 = .an).count (.an, r) := by
    induction ts with
    | nil => rfl
    | cons t ts ih =>
      have e1 : tagsOf (t :: ts) r = tagsOf [t] r ++ tagsOf ts r := tagsOf_append [t] ts r
      rw [e1, List.count_append, List.filter_cons]
      have hn : (ts.filter fun t => t.1 = .an).Nodup := by
        rw [List.filter_cons] at h
        split at h
        · exact (List.nodup_cons.mp h).2
        · exact h
      rw [ih hn]
      obtain ⟨s, q⟩ := t
      cases s <;> by_cases hq : q = r <;> simp [tagsOf, hq] <;> omega
  rw [e]
  by_cases hm : (Section.an, r) ∈ ts
  · rw [if_pos hm, h.count, if_pos (List.mem_filter.mpr ⟨hm, by simp⟩)]
  · rw [if_neg hm]
    exact List.count_eq_zero_of_not_mem fun m => hm (List.mem_filter.mp m).1

/-- The answers for everyone among the steps of a call. -/
theorem Did.anns {env : Env} {o : Op} {c c' : Core} {l l' : Lists} {a : OpOut} (n : Did env o c l a c' l') (i : RInv c l)
    {r : Nat} {ls : List Lab} (hp : puts ls = tagsOf a.tags r) (hm : ∀ b ∈ ls, o.may l.size a r b) :
    Mdns.anns ls = if Call.shows .an r (o, a) then 1 else 0 := by
  by_cases hs : o.isSend
  · cases n with
    | @send t ret m to _ _ _ _ n =>
      have hm : ∀ b ∈ ls, sendLab (to.port == 5353) r b := hm
      unfold Call.shows
      show _ = if ((to.port == 5353) && m.tags.contains (.an, r)) = true then 1 else 0
      cases h5 : to.port == 5353 with
      | true =>
        rw [anns_puts fun w m => ?_, hp]
        · rw [show (OpOut.sent ret m to).tags = m.tags from rfl, count_tags (n.nodup (i.congr rfl rfl rfl)).1]
          simp
        · rcases hm _ m with h | ⟨s, w', e, h⟩
          · cases h
          · cases e
            rw [h5] at h
            exact h rfl
      | false =>
        rw [anns_zero fun w m => ?_]
        · simp
        · rcases hm _ m with h | ⟨s, w', e, h⟩
          · cases h
          · cases e
            rw [h5] at h
            exact h rfl
    | _ => exact absurd hs (by simp [Op.isSend])
  · have ht := n.tags hs
    rw [ht] at hp
    have : Call.shows .an r (o, a) = false := by simp [Call.shows, ht]
    rw [this, if_neg (by simp)]
    refine anns_zero fun w m => ?_
    have : .an ∈ puts ls := List.mem_filterMap.mpr ⟨_, m, rfl⟩
    rw [hp] at this
    cases this

theorem RSteps.keeps {Q : Nat → View → Prop} {A : Lab → Prop}
    (hq : ∀ {n u ls v}, RStep u ls v → (∀ b ∈ ls, A b) → Placed u → Q n u → Q (n + anns ls) v) {u v : View} {ls : List Lab}
    (h : RSteps u ls v) (ha : ∀ b ∈ ls, A b) (hp : Placed u) {n : Nat} (h0 : Q n u) : Q (n + anns ls) v := by
  induction h generalizing n with
  | refl => exact h0
  | step h _ ih =>
    rw [anns_append, ← Nat.add_assoc]
    exact ih (fun b m => ha b (List.mem_append_right _ m)) (h.placed hp)
      (hq h (fun b m => ha b (List.mem_append_left _ m)) hp h0)

/-- What the steps of a record keep is kept by calls. -/
theorem Calls.keeps {env : Env} {d d' : D Ptrs} {h : List Call} (n : Calls env d h d') (hr : Reach env d) {r : Nat}
    (hsz : r < d.lists.size) {Q : Nat → View → Prop} {A : Lab → Prop}
    (hq : ∀ {n u ls v}, RStep u ls v → (∀ b ∈ ls, A b) → Placed u → Q n u → Q (n + anns ls) v)
    (ha : ∀ k ∈ h, ∀ m b, b ≠ .new → k.1.may m k.2 r b → A b) (h0 : Q 0 (view d.c d.lists r)) :
    Q (shown .an r h) (view d'.c d'.lists r) ∧ r < d'.lists.size := by
  refine n.induct (P := fun h c l => Q (shown .an r h) (view c l r) ∧ r < l.size) hr ⟨h0, hsz⟩ ?_
  rintro h1 c l o a c' l' ⟨h2, e⟩ ⟨hp, hlt⟩ hi hu hso hdid hi'
  have hrun := hdid.run hi hu
  refine ⟨?_, Nat.lt_of_lt_of_le hlt hrun.size⟩
  obtain ⟨ls, hs, ht, hm⟩ := hrun.steps r
  rw [shown_append, shown_one, ← hdid.anns hi.rinv ht hm]
  refine hs.keeps hq (fun b m => ?_) (view_placed hi.rinv r) hp
  refine ha (o, a) (by rw [e]; simp) l.size b (fun eb => ?_) (hm b m)
  subst eb
  have := (Op.may_new (hm _ m)).1
  omega

/-! ### Announcements -/

/-- After `n` of the four announcements. -/
def Ann (n : Nat) (v : View) : Prop :=
  ∃ x, v.x = some x ∧ x.rr.ttl ≠ 0 ∧
    ((x.Probing ∧ n = 0) ∨ (¬ x.Probing ∧ v.at_ = some .publish ∧ x.tries = n ∧ n < 4) ∨
      (¬ x.Probing ∧ v.at_ = none ∧ n = 4))

theorem RStep.ann {u v : View} {ls : List Lab} (h : RStep u ls v) (hl : ∀ a ∈ ls, a.sends) (hp : Placed u) {n : Nat}
    (q : Ann n u) : Ann (n + anns ls) v := by
  have same : ∀ {x x' : Rec} {p : Option W}, Keep x x' → Ann n ⟨some x, p⟩ → Ann n ⟨some x', p⟩ := by
    rintro x x' p h ⟨y, hy, h1, h2⟩
    cases hy
    refine ⟨_, rfl, by rw [h.rr]; exact h1, ?_⟩
    unfold Rec.Probing at *
    rw [h.unique, h.tries]
    exact h2
  have noans : ∀ {x : Rec} {w : W}, w.answers → Ann n ⟨some x, some w⟩ → Placed ⟨some x, some w⟩ → False := by
    rintro x w hw ⟨y, hy, h1, h2⟩ hp
    cases hy
    have := hp x rfl
    rcases h2 with h2 | h2 | h2
    · have := this.mp h2.1
      rcases hw with rfl | rfl <;> simp at this
    · rcases hw with rfl | rfl <;> simp at h2
    · simp at h2
  cases h with
  | touch h => exact same h q
  | skip hw => exact (noans hw q hp).elim
  | shared => exact absurd (hl .new (by simp)) (by simp [Lab.sends])
  | unique => exact absurd (hl .new (by simp)) (by simp [Lab.sends])
  | edit => exact absurd (hl .set (by simp)) (by simp [Lab.sends])
  | publish => exact absurd (hl .set (by simp)) (by simp [Lab.sends])
  | queue => exact absurd (hl .ask (by simp)) (by simp [Lab.sends])
  | bye => exact absurd (hl .bye (by simp)) (by simp [Lab.sends])
  | drop => exact absurd (hl .free (by simp)) (by simp [Lab.sends])
  | sent hw => exact (noans hw q hp).elim
  | sentBye hw ht =>
    obtain ⟨y, hy, h1, _⟩ := q
    cases hy
    exact absurd ht h1
  | announce ht h4 hr hu htr =>
    obtain ⟨y, hy, h1, h2⟩ := q
    cases hy
    have := hp _ rfl
    rcases h2 with h2 | h2 | h2
    · have := this.mp h2.1
      simp at this
    · refine ⟨_, rfl, by rw [hr]; exact h1, .inr (.inl ?_)⟩
      unfold Rec.Probing at *
      rw [hu, htr]
      simp [anns, Lab.isAn]
      omega
    · simp at h2
  | announceLast ht h4 hr hu htr =>
    obtain ⟨y, hy, h1, h2⟩ := q
    cases hy
    have := hp _ rfl
    rcases h2 with h2 | h2 | h2
    · have := this.mp h2.1
      simp at this
    · refine ⟨_, rfl, by rw [hr]; exact h1, .inr (.inr ?_)⟩
      unfold Rec.Probing at *
      rw [hu]
      simp [anns, Lab.isAn]
      omega
    · simp at h2
  | verify hu hr hu' ht =>
    obtain ⟨y, hy, h1, h2⟩ := q
    cases hy
    have hpr := (hp _ rfl).mpr rfl
    rcases h2 with h2 | h2 | h2
    · refine ⟨_, rfl, by rw [hr]; exact h1, .inr (.inl ?_)⟩
      unfold Rec.Probing
      rw [hu', ht]
      simp [anns, Lab.isAn]
      omega
    · exact absurd hpr h2.1
    · exact absurd hpr h2.1
  | propose hu hr hu' ht =>
    obtain ⟨y, hy, h1, h2⟩ := q
    cases hy
    have hpr := (hp _ rfl).mpr rfl
    rcases h2 with h2 | h2 | h2
    · refine ⟨_, rfl, by rw [hr]; exact h1, .inl ?_⟩
      unfold Rec.Probing
      rw [hu']
      simp [anns, Lab.isAn]
      omega
    · exact absurd hpr h2.1
    · exact absurd hpr h2.1
  | unicast h => exact same h q
  | extra => exact q

/-! ### Records that were set -/

/-- The record is being probed or announced, or has been announced. -/
def WasSet (v : View) : Prop := ∀ x, v.x = some x → x.Probing ∨ v.at_ = some .publish ∨ 4 ≤ x.tries

theorem RStep.wasSet {u v : View} {ls : List Lab} (h : RStep u ls v) (hl : .new ∉ ls) (hp : Placed u) (q : WasSet u) :
    WasSet v := by
  have same : ∀ {x x' : Rec} {p : Option W}, Keep x x' → WasSet ⟨some x, p⟩ → WasSet ⟨some x', p⟩ := by
    rintro x x' p h q y hy
    cases hy
    have := q x rfl
    unfold Rec.Probing at *
    rw [h.unique, h.tries]
    exact this
  have gone : ∀ {x : Rec} {w : W}, w.answers → Placed ⟨some x, some w⟩ → WasSet ⟨some x, some w⟩ → 4 ≤ x.tries := by
    intro x w hw hp q
    rcases q x rfl with h | h | h
    · have := (hp x rfl).mp h
      rcases hw with rfl | rfl <;> simp at this
    · rcases hw with rfl | rfl <;> simp at h
    · exact h
  cases h with
  | touch h => exact same h q
  | skip hw => intro y hy; cases hy; exact .inr (.inr (gone hw hp q))
  | shared => simp at hl
  | unique => simp at hl
  | edit hp' h ht => intro y hy; cases hy; left; unfold Rec.Probing at *; rw [h.unique]; exact hp'
  | publish => intro y hy; exact .inr (.inl rfl)
  | @queue x p w hp' h hw =>
    intro y hy; cases hy
    right; right
    rcases h with h | h
    · exact h
    · subst h
      rcases q x rfl with h | h | h
      · exact absurd h hp'
      · cases h
      · exact h
  | @bye x p h => intro y hy; cases hy; exact q x rfl
  | drop => intro y hy; cases hy
  | sent hw ht h => intro y hy; cases hy; right; right; rw [h.tries]; exact gone hw hp q
  | sentBye => intro y hy; cases hy
  | announce => intro y hy; exact .inr (.inl rfl)
  | announceLast _ h4 _ _ htr => intro y hy; cases hy; right; right; omega
  | verify => intro y hy; exact .inr (.inl rfl)
  | propose hu _ hu' =>
    intro y hy; cases hy; left
    unfold Rec.Probing
    omega
  | unicast h => exact same h q
  | extra => exact q

/-! ### Goodbyes -/

/-- After `n` goodbyes: the record is still there, withdrawn, or gone. -/
def Gone (n : Nat) (v : View) : Prop :=
  (∃ x, v.x = some x ∧ x.rr.ttl = 0 ∧ ¬ x.Probing ∧ n = 0) ∨ (v = ⟨none, none⟩ ∧ n ≤ 1)

theorem RStep.gone {u v : View} {ls : List Lab} (h : RStep u ls v) (hl : .new ∉ ls) (hp : Placed u) {n : Nat}
    (q : Gone n u) : Gone (n + anns ls) v := by
  have same : ∀ {x x' : Rec} {p p' : Option W}, x'.rr.ttl = x.rr.ttl → x'.unique = x.unique → Gone n ⟨some x, p⟩ →
      Gone n ⟨some x', p'⟩ := by
    rintro x x' p p' h1 h2 (⟨y, hy, h3, h4, h5⟩ | ⟨h, _⟩)
    · cases hy
      refine .inl ⟨_, rfl, h1.trans h3, ?_, h5⟩
      unfold Rec.Probing at *
      rw [h2]
      exact h4
    · cases h
  have ttl : ∀ {x : Rec} {p : Option W}, Gone n ⟨some x, p⟩ → x.rr.ttl = 0 ∧ ¬ x.Probing ∧ n = 0 := by
    rintro x p (⟨y, hy, h3, h4, h5⟩ | ⟨h, _⟩)
    · cases hy; exact ⟨h3, h4, h5⟩
    · cases h
  cases h with
  | touch h => exact same (by rw [h.rr]) h.unique q
  | skip hw => exact same rfl rfl q
  | shared => simp at hl
  | unique => simp at hl
  | edit hp' h ht => exact same h.ttl h.unique q
  | publish _ h => exact same h.ttl h.unique q
  | queue => exact same rfl rfl q
  | bye h => exact .inl ⟨_, rfl, rfl, h, (ttl q).2.2⟩
  | drop => exact .inr ⟨rfl, by have := (ttl q).2.2; subst this; exact Nat.zero_le _⟩
  | sent hw ht h => exact absurd (ttl q).1 ht
  | sentBye => exact .inr ⟨rfl, by have := (ttl q).2.2; subst this; exact Nat.le_refl _⟩
  | announce ht => exact absurd (ttl q).1 ht
  | announceLast ht => exact absurd (ttl q).1 ht
  | verify hu => exact absurd ((hp _ rfl).mpr rfl) (ttl q).2.1
  | propose hu => exact absurd ((hp _ rfl).mpr rfl) (ttl q).2.1
  | unicast h => exact same (by rw [h.rr]) h.unique q
  | extra => exact q

end Mdns
