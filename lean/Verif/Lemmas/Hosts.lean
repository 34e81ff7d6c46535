import Verif.Lemmas.Receive

/-!
# What setting the addresses of a host does to single records
-/

namespace Mdns

/-- An address record of the host. -/
def Rec.Of (host : Bytes) (type : Nat) (x : Rec) : Prop := x.rr.type = type ∧ x.rr.name = host

/-- The address is of the family of the type. -/
def Ip.fits (type : Nat) : Ip → Prop
  | .v4 _ => type = 1
  | .v6 _ => type ≠ 1

theorem addrOf_withAddr {x : Rec} {type : Nat} {a : Ip} (h : a.fits type) : (x.withAddr a).rr.addrOf type = a := by
  cases a with
  | v4 a => simp only [Ip.fits] at h; simp [Rec.withAddr, Answer.addrOf, h]
  | v6 a => simp only [Ip.fits] at h; simp [Rec.withAddr, Answer.addrOf, h]

theorem setSt_rr (c : Core) (l : Lists) (r : Nat) (x : Rec) :
    (∃ y, (setSt c l r x).c.recs r = some y ∧ y.rr = x.rr) ∧ ∀ s, s ≠ r → (setSt c l r x).c.recs s = c.recs s := by
  unfold setSt publishSt
  split
  · refine ⟨⟨_, upd_same .., rfl⟩, fun s e => ?_⟩
    show upd (upd c.recs r _) r _ s = _
    rw [upd_other _ _ _ _ e, upd_other _ _ _ _ e]
  · refine ⟨⟨_, upd_same .., rfl⟩, fun s e => ?_⟩
    show upd (upd c.recs r _) r _ s = _
    rw [upd_other _ _ _ _ e, upd_other _ _ _ _ e]

/-- A new address record, and the others. -/
theorem addrSt_recs {c : Core} {l : Lists} (host : Bytes) (type ttl : Nat) (want : Ip) :
    (∃ y, (addrSt c l host type ttl want).c.recs l.size = some y ∧ y.rr.name = host ∧ y.rr.type = type ∧ y.rr.ttl = ttl ∧
        (want.fits type → y.rr.addrOf type = want)) ∧
      ∀ s, s ≠ l.size → (addrSt c l host type ttl want).c.recs s = c.recs s := by
  obtain ⟨⟨y, hy, e⟩, ho⟩ := setSt_rr (c.publishRec l.size (sharedRec host type ttl)) (l.fresh false) l.size
    ((sharedRec host type ttl).withAddr want)
  refine ⟨⟨y, hy, ?_, ?_, ?_, fun h => ?_⟩, fun s e => (ho s e).trans (upd_other _ _ _ _ e)⟩
  · rw [e]; cases want <;> rfl
  · rw [e]; cases want <;> rfl
  · rw [e]; cases want <;> rfl
  · rw [e]; exact addrOf_withAddr h

theorem addrSt_view {c : Core} {l : Lists} (h : DInv c l) (host : Bytes) (type ttl : Nat) (want : Ip) {s : Nat}
    (e : s ≠ l.size) : view (addrSt c l host type ttl want).c (addrSt c l host type ttl want).q s = view c l s := by
  refine view_congr ((addrSt_recs (c := c) (l := l) host type ttl want).2 s e) fun w => ?_
  have hi := (shared_inv h host type ttl).rinv
  have hf : ∀ v, s ∈ (l.fresh false).q v ↔ s ∈ l.q v := fun v => by rw [mem_fresh]; simp
  unfold addrSt setSt publishSt
  split
  · exact hf w
  · show s ∈ ((l.fresh false).moveTo .publish l.size).q w ↔ _
    rw [mem_moveTo hi]
    simp [e, hf]

/-- What the adding loop does. -/
structure Added (host : Bytes) (type ttl : Nat) (wants : List Ip) (c : Core) (l : Lists) (c' : Core) (l' : Lists) : Prop where
  old : ∀ r x, c.recs r = some x → view c' l' r = view c l r
  new : ∀ r x, c.recs r = none → c'.recs r = some x → x.Of host type ∧ x.rr.ttl = ttl ∧ x.rr.addrOf type ∈ wants ∧
    ∀ s y, c.recs s = some y → y.Of host type → y.rr.addrOf type ≠ x.rr.addrOf type
  once : ∀ r x s y, c.recs r = none → c'.recs r = some x → c.recs s = none → c'.recs s = some y →
    x.rr.addrOf type = y.rr.addrOf type → r = s
  all : ∀ w ∈ wants, ∃ r x, c'.recs r = some x ∧ x.Of host type ∧ x.rr.addrOf type = w

theorem isAddr_iff {c : Core} {host : Bytes} {type : Nat} {want : Ip} {r : Nat} :
    c.isAddr host type want r = true ↔ ∃ x, c.recs r = some x ∧ x.Of host type ∧ x.rr.addrOf type = want := by
  unfold Core.isAddr
  split
  · rename_i x hx
    rw [decide_eq_true_iff]
    exact ⟨fun h => ⟨x, hx, ⟨h.1, h.2.1⟩, h.2.2⟩, fun ⟨y, hy, h1, h2⟩ => by
      rw [hx] at hy; cases hy; exact ⟨h1.1, h1.2, h2⟩⟩
  · rename_i hx
    simp [hx]

theorem AddA.added {host : Bytes} {type ttl : Nat} {wants : List Ip} {c c' : Core} {l l' : Lists}
    (n : AddA host type ttl wants c l c' l') (hf : ∀ w ∈ wants, w.fits type) : Added host type ttl wants c l c' l' := by
  induction n with
  | nil h =>
    refine ⟨fun _ _ _ => rfl, fun r x h1 h2 => ?_, fun r x s y h1 h2 => ?_, fun w m => by cases m⟩
    · rw [h1] at h2; cases h2
    · rw [h1] at h2; cases h2
  | @there want wants c c' l l' h r hr n ih =>
    obtain ⟨o, nw, un, al⟩ := ih fun w m => hf w (List.mem_cons_of_mem _ m)
    refine ⟨o, fun r x h1 h2 => ?_, un, fun w m => ?_⟩
    · obtain ⟨a, b, c, d⟩ := nw r x h1 h2
      exact ⟨a, b, List.mem_cons_of_mem _ c, d⟩
    · rcases List.mem_cons.mp m with rfl | m
      · obtain ⟨x, hx, h1, h2⟩ := isAddr_iff.mp hr
        exact ⟨r, x, (congrArg View.x (o r x hx)).trans hx, h1, h2⟩
      · exact al w m
  | @new want wants c c' l l' h hr n ih =>
    obtain ⟨o, nw, un, al⟩ := ih fun w m => hf w (List.mem_cons_of_mem _ m)
    obtain ⟨⟨y, hy, e1, e2, e3, e4⟩, ho⟩ := addrSt_recs (c := c) (l := l) host type ttl want
    have e4 := e4 (hf want (List.mem_cons_self ..))
    have hy' : c'.recs l.size = some y := (congrArg View.x (o _ _ hy)).trans hy
    have hab := h.rinv.absent.1
    have ne : ∀ {r x}, c.recs r = some x → r ≠ l.size := by
      rintro r x hx rfl
      rw [hab] at hx
      cases hx
    refine ⟨fun r x hx => ?_, fun r x h1 h2 => ?_, fun r x s z h1 h2 h3 h4 h5 => ?_, fun w m => ?_⟩
    · exact (o r x ((ho r (ne hx)).trans hx)).trans (addrSt_view h host type ttl want (ne hx))
    · by_cases e : r = l.size
      · subst e
        rw [hy'] at h2
        cases h2
        refine ⟨⟨e2, e1⟩, e3, by rw [e4]; exact List.mem_cons_self .., fun s z hz hof => ?_⟩
        rw [e4]
        intro hc
        have := hr s
        rw [isAddr_iff.mpr ⟨z, hz, hof, hc⟩] at this
        cases this
      · obtain ⟨a, b, c0, d⟩ := nw r x ((ho r e).trans h1) h2
        exact ⟨a, b, List.mem_cons_of_mem _ c0, fun s z hz => d s z ((ho s (ne hz)).trans hz)⟩
    · by_cases e : r = l.size
      · by_cases e' : s = l.size
        · rw [e, e']
        · exfalso
          subst e
          rw [hy'] at h2
          cases h2
          exact (nw s z ((ho s e').trans h3) h4).2.2.2 l.size y hy ⟨e2, e1⟩ h5
      · by_cases e' : s = l.size
        · exfalso
          subst e'
          rw [hy'] at h4
          cases h4
          exact (nw r x ((ho r e).trans h1) h2).2.2.2 l.size y hy ⟨e2, e1⟩ h5.symm
        · exact un r x s z ((ho r e).trans h1) h2 ((ho s e').trans h3) h4 h5
    · rcases List.mem_cons.mp m with rfl | m
      · exact ⟨l.size, y, hy', ⟨e2, e1⟩, e4⟩
      · exact al w m

/-- What becomes of a record: one being probed is gone, another has the lifetime 0. -/
def Rec.Leaves (x : Rec) (o : Option Rec) : Prop :=
  (x.Probing → o = none) ∧ (¬ x.Probing → o = some { x with rr := { x.rr with ttl := 0 } })

/-- A record after `mdnsd_done`. -/
theorem doneSt_recs {c : Core} {l : Lists} (h : RInv c l) {r : Nat} {x : Rec} (hx : c.recs r = some x) :
    x.Leaves ((doneSt c l r x).c.recs r) ∧
      ∀ s, s ≠ r → view (doneSt c l r x).c (doneSt c l r x).q s = view c l s := by
  unfold doneSt
  by_cases hp : x.unique ≠ 0 ∧ x.unique < 5
  · rw [if_pos hp]
    exact ⟨⟨fun _ => upd_same .., fun h => absurd hp h⟩, fun s e => (view_drop h hx hp rfl s).1 e⟩
  · have hp' : ¬ x.Probing := hp
    rw [if_neg hp, sendSt_recs]
    refine ⟨⟨fun h => absurd h hp', fun _ => upd_same ..⟩, fun s e => ?_⟩
    have h1 : RInv { c with recs := upd c.recs r (some { x with rr := { x.rr with ttl := 0 } }) } l :=
      h.setRec hx rfl rfl (h.conf r x hx) (h.tries r x hx) (h.ptries r x hx)
    refine ((view_sendSt h1 (upd_same ..) s).1 e).trans (view_congr (upd_other _ _ _ _ e) fun _ => Iff.rfl)

/-- What the removing loop does. -/
structure Dropped (host : Bytes) (type : Nat) (want : List Ip) (rs : List Nat) (c : Core) (l : Lists) (c' : Core) (l' : Lists) :
    Prop where
  keep : ∀ r x, c.recs r = some x → ¬ (x.Of host type ∧ x.rr.addrOf type ∉ want) → view c' l' r = view c l r
  drop : ∀ r x, c.recs r = some x → r ∈ rs → x.Of host type → x.rr.addrOf type ∉ want →
    x.Leaves (c'.recs r)
  out : ∀ r x, c.recs r = some x → r ∉ rs → view c' l' r = view c l r
  none : ∀ r, c.recs r = none → c'.recs r = none

theorem DropA.dropped {host : Bytes} {type : Nat} {want : List Ip} {rs : List Nat} {c c' : Core} {l l' : Lists}
    (n : DropA host type want rs c l c' l') (nd : rs.Nodup) : Dropped host type want rs c l c' l' := by
  induction n with
  | nil h => exact ⟨fun _ _ _ _ => rfl, fun r _ _ m => (List.not_mem_nil m).elim, fun _ _ _ _ => rfl, fun _ h => h⟩
  | @keep r rs c c' l l' x h hx hk n ih =>
    rw [List.nodup_cons] at nd
    obtain ⟨k, dr, o, no⟩ := ih nd.2
    refine ⟨k, fun s y hy m hof ha => ?_, fun s y hy m => o s y hy fun h => m (List.mem_cons_of_mem _ h), no⟩
    rcases List.mem_cons.mp m with rfl | m
    · rw [hx] at hy
      cases hy
      exact absurd ⟨hof.1, hof.2, ha⟩ hk
    · exact dr s y hy m hof ha
  | @drop r rs c c' l l' x h hx hk n ih =>
    rw [List.nodup_cons] at nd
    obtain ⟨k, dr, o, no⟩ := ih nd.2
    obtain ⟨d1, d2⟩ := doneSt_recs h.rinv hx
    have d3 : ∀ s, s ≠ r → (doneSt c l r x).c.recs s = c.recs s := fun s e => congrArg View.x (d2 s e)
    have gone : x.Leaves (c'.recs r) :=
      ⟨fun hp => no r (d1.1 hp), fun hp => (congrArg View.x (o r _ (d1.2 hp) nd.1)).trans (d1.2 hp)⟩
    refine ⟨fun s y hy hnot => ?_, fun s y hy m hof ha => ?_, fun s y hy m => ?_, fun s hs => ?_⟩
    · by_cases e : s = r
      · subst e
        rw [hx] at hy
        cases hy
        exact absurd ⟨⟨hk.1, hk.2.1⟩, hk.2.2⟩ hnot
      · exact (k s y ((d3 s e).trans hy) hnot).trans (d2 s e)
    · by_cases e : s = r
      · subst e
        rw [hx] at hy
        cases hy
        exact gone
      · exact dr s y ((d3 s e).trans hy) (by simpa [e] using m) hof ha
    · rw [List.mem_cons, not_or] at m
      exact (o s y ((d3 s m.1).trans hy) m.2).trans (d2 s m.1)
    · have e : s ≠ r := by
        rintro rfl
        rw [hx] at hs
        cases hs
      exact no s ((d3 s e).trans hs)

/-- What setting the addresses of a host does. -/
structure Updated (host : Bytes) (type : Nat) (want : List Ip) (c : Core) (l : Lists) (c' : Core) (l' : Lists) : Prop where
  keep : ∀ r x, c.recs r = some x → ¬ (x.Of host type ∧ x.rr.addrOf type ∉ want) → view c' l' r = view c l r
  drop : ∀ r x, c.recs r = some x → x.Of host type → x.rr.addrOf type ∉ want →
    x.Leaves (c'.recs r)
  new : ∀ r x, c.recs r = none → c'.recs r = some x → x.Of host type ∧ x.rr.ttl ≠ 0 ∧ x.rr.addrOf type ∈ want ∧
    ∀ s y, c.recs s = some y → y.Of host type → y.rr.addrOf type ≠ x.rr.addrOf type
  once : ∀ r x s y, c.recs r = none → c'.recs r = some x → c.recs s = none → c'.recs s = some y →
    x.rr.addrOf type = y.rr.addrOf type → r = s
  all : ∀ w ∈ want, ∃ r x, c'.recs r = some x ∧ x.Of host type ∧ x.rr.addrOf type = w

theorem UpdA.updated {host : Bytes} {type : Nat} {want : List Ip} {c c' : Core} {l l' : Lists}
    (n : UpdA host type want c l c' l') (hf : ∀ w ∈ want, w.fits type) : Updated host type want c l c' l' := by
  obtain @⟨ttl, c1, l1, h, ht, a, d⟩ := n
  have ad := a.added hf
  have i1 := a.inv.rinv
  have dd := d.dropped (i1.pnodup _)
  have up : ∀ r x, c.recs r = some x → c1.recs r = some x := fun r x hx => (congrArg View.x (ad.old r x hx)).trans hx
  have same : ∀ r x, c.recs r = .none → c'.recs r = some x → c1.recs r = some x := fun r x h1 h2 => by
    cases h3 : c1.recs r with
    | none => rw [dd.none r h3] at h2; cases h2
    | some y =>
      have := ad.new r y h1 h3
      rw [← h2, ← h3]
      exact (congrArg View.x (dd.keep r y h3 fun h => h.2 this.2.2.1)).symm
  refine ⟨fun r x hx hn => (dd.keep r x (up r x hx) hn).trans (ad.old r x hx),
    fun r x hx hof ha => dd.drop r x (up r x hx) ?_ hof ha, fun r x h1 h2 => ?_, fun r x s y h1 h2 h3 h4 =>
      ad.once r x s y h1 (same r x h1 h2) h3 (same s y h3 h4), fun w m => ?_⟩
  · have := i1.mem r x (up r x hx)
    rw [hof.2] at this
    exact this
  · have := ad.new r x h1 (same r x h1 h2)
    exact ⟨this.1, by rw [this.2.1]; exact ht, this.2.2⟩
  · obtain ⟨r, x, hx, hof, ha⟩ := ad.all w m
    exact ⟨r, x, (congrArg View.x (dd.keep r x hx fun h => h.2 (ha ▸ m))).trans hx, hof, ha⟩

end Mdns
