import Verif.Lemmas.Announce

/-!
# Lives of records in histories
-/

namespace Mdns

/-! ### Setting and withdrawing -/

theorem setSt_view {c : Core} {l : Lists} (h : RInv c l) {r : Nat} {x : Rec} :
    (x.Probing ∧ view (setSt c l r x).c (setSt c l r x).q r = ⟨some { x with modified := true }, l.place r⟩) ∨
      (¬ x.Probing ∧ view (setSt c l r x).c (setSt c l r x).q r =
        ⟨some { x with modified := true, tries := 0 }, some .publish⟩) := by
  unfold setSt publishSt
  simp only [upd_upd]
  by_cases hp : x.unique ≠ 0 ∧ x.unique < 5
  · left
    rw [if_pos hp]
    exact ⟨hp, congrArg (fun y => View.mk y (l.place r)) (upd_same ..)⟩
  · right
    rw [if_neg hp]
    refine ⟨hp, view_eq (upd_same ..) fun v => ?_⟩
    rw [mem_moveTo h]
    simp [eq_comm]

/-- A record whose data were set is to be announced. -/
theorem Did.set {env : Env} {o : Op} {c c' : Core} {l l' : Lists} {a : OpOut} {r : Nat} (n : Did env o c l a c' l')
    (i : RInv c l) (ho : o.sets r = true) : ∃ x x', c.recs r = some x ∧ c'.recs r = some x' ∧ x'.rr.ttl = x.rr.ttl ∧
      x'.unique = x.unique ∧ (x.Probing ∨ (¬ x.Probing ∧ (view c' l' r).at_ = some .publish ∧ x'.tries = 0)) := by
  have key : ∀ {x y : Rec}, c.recs r = some x → y.rr.ttl = x.rr.ttl → y.unique = x.unique →
      ∃ x x', c.recs r = some x ∧ (setSt c l r y).c.recs r = some x' ∧ x'.rr.ttl = x.rr.ttl ∧ x'.unique = x.unique ∧
        (x.Probing ∨ (¬ x.Probing ∧ (view (setSt c l r y).c (setSt c l r y).q r).at_ = some .publish ∧ x'.tries = 0)) := by
    intro x y hx ht hu
    have e : y.Probing ↔ x.Probing := by unfold Rec.Probing; rw [hu]
    rcases setSt_view i (r := r) (x := y) with ⟨h1, h2⟩ | ⟨h1, h2⟩
    · exact ⟨x, _, hx, (congrArg View.x h2 : (view (setSt c l r y).c (setSt c l r y).q r).x = _), ht, hu, .inl (e.mp h1)⟩
    · exact ⟨x, _, hx, (congrArg View.x h2 : (view (setSt c l r y).c (setSt c l r y).q r).x = _), ht, hu,
        .inr ⟨fun h => h1 (e.mpr h), congrArg View.at_ h2, rfl⟩⟩
  cases n with
  | setRaw hx => obtain rfl := beq_iff_eq.mp ho; exact key hx rfl rfl
  | setHost hx => obtain rfl := beq_iff_eq.mp ho; exact key hx rfl rfl
  | setIp hx => obtain rfl := beq_iff_eq.mp ho; exact key hx rfl rfl
  | setIpv6 hx => obtain rfl := beq_iff_eq.mp ho; exact key hx rfl rfl
  | setSrv hx => obtain rfl := beq_iff_eq.mp ho; exact key hx rfl rfl
  | _ => simp [Op.sets] at ho

theorem view_wasSet {c : Core} {l : Lists} {r : Nat} {x : Rec} (hx : c.recs r = some x)
    (h : x.Probing ∨ (view c l r).at_ = some .publish ∨ 4 ≤ x.tries) : WasSet (view c l r) := by
  intro y hy
  have hy : c.recs r = some y := hy
  rw [hx] at hy
  cases hy
  exact h

/-- Once set, a record is in a queue or has been announced. -/
theorem Hist.wasSet {env : Env} {h : List Call} {d : D Ptrs} (n : Hist env h d) {r : Nat} (hs : ∃ k ∈ h, k.1.sets r = true) :
    WasSet (view d.c d.lists r) := by
  obtain ⟨⟨o, a⟩, hm, hs⟩ := hs
  obtain ⟨pre, post, rfl⟩ := List.append_of_mem hm
  obtain ⟨d1, d2, n1, hso, e, n2, cs⟩ := n.at
  obtain ⟨x, x', hx, hx', ht, hu, hc⟩ := (n1.reach.did hso e).set n1.reach.inv.rinv hs
  have hsz : r < d2.lists.size := n2.reach.inv.rinv.bound r (by rw [hx']; rfl)
  refine (cs.keeps n2.reach hsz (Q := fun _ v => WasSet v) (A := fun b => b ≠ .new)
    (fun h ha hp q => h.wasSet (fun m => ha _ m rfl) hp q) (fun k _ m b hb _ => hb) (view_wasSet hx' ?_)).1
  rcases hc with hc | ⟨_, hc, _⟩
  · left
    unfold Rec.Probing at *
    rw [hu]
    exact hc
  · exact .inr (.inl hc)

/-- A withdrawn record is queued, if it was being announced or was announced. -/
theorem Did.done_view {env : Env} {r : Nat} {c c' : Core} {l l' : Lists} {a : OpOut} (n : Did env (.done r) c l a c' l')
    (i : RInv c l) {x : Rec} (hx : c.recs r = some x) :
    (x.Probing → view c' l' r = ⟨none, none⟩) ∧
      (¬ x.Probing → Gone 0 (view c' l' r) ∧ (WasSet (view c l r) → ∃ w, w ≠ .probing ∧ r ∈ l'.q w)) := by
  cases n with
  | done hx' =>
    rw [hx] at hx'
    cases hx'
    have hi := doneSt_inv (c := c) (l := l) (r := r) (x := x)
    constructor
    · intro hp
      have e : doneSt c l r x = ⟨c.dropRec r x, (l.set .probing ((l.q .probing).erase r)).dead r⟩ := if_pos hp
      rw [e]
      refine view_eq (upd_same ..) fun w => ?_
      simp only [reduceCtorEq, iff_false]
      intro m
      have m : r ∈ (l.set .probing ((l.q .probing).erase r)).q w := m
      have hm := (i.probing r x hx).mpr hp
      rw [mem_set] at m
      split at m
      · exact ((i.nodup _).mem_erase_iff.mp m).1 rfl
      · rename_i hw
        exact hw (i.disj _ _ _ m hm)
    · intro hp
      have e : doneSt c l r x = sendSt { c with recs := upd c.recs r (some x.bye) } l r x.bye := if_neg hp
      rw [e]
      have hrec : (sendSt { c with recs := upd c.recs r (some x.bye) } l r x.bye).c.recs r = some x.bye := by
        unfold sendSt
        split
        · exact upd_same ..
        · split <;> exact upd_same ..
      refine ⟨.inl ⟨x.bye, hrec, rfl, hp, rfl⟩, fun hs => ?_⟩
      unfold sendSt
      have i' : RInv { c with recs := upd c.recs r (some x.bye) } l :=
        i.setRec hx rfl rfl (i.conf r x hx) (i.tries r x hx) (i.ptries r x hx)
      by_cases h4 : x.bye.tries < 4
      · rw [if_pos h4]
        rcases hs x hx with h | h | h
        · exact absurd h hp
        · exact ⟨.publish, by decide, (mem_place i _).mpr h⟩
        · exact absurd h4 (Nat.not_lt.mpr h)
      · rw [if_neg h4]
        split
        · refine ⟨.now, by decide, ?_⟩
          rw [mem_moveTo i']
          simp
        · refine ⟨.pause, by decide, ?_⟩
          show r ∈ (l.moveTo .pause r).q .pause
          rw [mem_moveTo i']
          simp

/-! ### After a record was set -/

/-- The calls that make packets and nothing else. -/
theorem sends_lab {h : List Call} (hp : ∀ k ∈ h, ∃ t, k.1 = .send t) {r : Nat} :
    ∀ k ∈ h, ∀ m b, b ≠ .new → k.1.may m k.2 r b → b.sends := by
  intro k hk m b _ hb
  obtain ⟨t, e⟩ := hp k hk
  rw [e] at hb
  exact sendLab.sends (r := r) hb

/-- A record that was just set. -/
theorem Did.ann {env : Env} {o : Op} {c c' : Core} {l l' : Lists} {a : OpOut} {r : Nat} (n : Did env o c l a c' l')
    (i : RInv c l) (ho : o.sets r = true) {x : Rec} (hx : c'.recs r = some x) (ht : x.rr.ttl ≠ 0) : Ann 0 (view c' l' r) := by
  obtain ⟨x0, x', h1, h2, h3, h4, h5⟩ := n.set i ho
  rw [hx] at h2
  cases h2
  refine ⟨x, hx, ht, ?_⟩
  have e : x.Probing ↔ x0.Probing := by unfold Rec.Probing; rw [h4]
  rcases h5 with h5 | ⟨h5, h6, h7⟩
  · exact .inl ⟨e.mpr h5, rfl⟩
  · exact .inr (.inl ⟨fun h => h5 (e.mp h), h6, h7, by omega⟩)

/-- Exactly four announcements, when packets are sent for long enough and nothing else happens. -/
theorem Calls.four {env : Env} {d d' : D Ptrs} {h : List Call} (n : Calls env d h d') (hr : Reach env d)
    (hp : Paced h) (ht : ∀ k ∈ h, ∀ t, k.1 = .send t → Rested d.c t) (hs : d.c.shutdown = false) (hd : d.c.disco = false)
    (hf : FitsAlone d.c) (hl : load d.c d.lists ≤ h.length) {r : Nat} (ha : Ann 0 (view d.c d.lists r)) :
    shown .an r h = 4 := by
  have hidle := n.settle hr hp ht hs hd hf hl
  have hsz : r < d.lists.size := by
    obtain ⟨x, hx, _⟩ := ha
    have hx : d.c.recs r = some x := hx
    exact hr.inv.rinv.bound r (by rw [hx]; rfl)
  obtain ⟨⟨x, hx, h1, h2⟩, _⟩ := n.keeps hr hsz (Q := Ann) (A := Lab.sends) (fun h ha hp q => h.ann ha hp q) (sends_lab hp.1) ha
  have i := (n.reach hr).inv.rinv
  rcases h2 with ⟨h2, _⟩ | ⟨_, h2, _⟩ | ⟨_, _, h2⟩
  · have := (i.probing r x hx).mpr h2
    rw [hidle.2] at this
    cases this
  · have := (mem_place i _).mpr h2
    rw [hidle.2] at this
    cases this
  · exact h2

/-! ### After a record was withdrawn -/

/-- At most one goodbye, and while it was not sent the record is there. -/
theorem Calls.goodbye {env : Env} {d d' : D Ptrs} {h : List Call} (n : Calls env d h d') (hr : Reach env d) {r : Nat}
    (hsz : r < d.lists.size) (hg : Gone 0 (view d.c d.lists r)) : Gone (shown .an r h) (view d'.c d'.lists r) :=
  (n.keeps hr hsz (Q := Gone) (A := fun b => b ≠ .new) (fun h ha hp q => h.gone (fun m => ha _ m rfl) hp q)
    (fun _ _ _ _ hb _ => hb) hg).1

/-- A record that is gone is in no packet. -/
theorem Calls.silent {env : Env} {d d' : D Ptrs} {h : List Call} (n : Calls env d h d') (hr : Reach env d) {r : Nat}
    (hsz : r < d.lists.size) (hg : view d.c d.lists r = ⟨none, none⟩) : ∀ k ∈ h, ∀ s, (s, r) ∉ k.2.tags := by
  suffices H : (∀ k ∈ h, ∀ s, (s, r) ∉ k.2.tags) ∧ view d'.c d'.lists r = ⟨none, none⟩ ∧ r < d'.lists.size from H.1
  refine n.induct (P := fun h c l => (∀ k ∈ h, ∀ s, (s, r) ∉ k.2.tags) ∧ view c l r = ⟨none, none⟩ ∧ r < l.size) hr
    ⟨by simp, hg, hsz⟩ ?_
  rintro h1 c l o a c' l' ⟨h2, e⟩ ⟨p1, p2, p3⟩ hi hu hso hdid hi'
  have hrun := hdid.run hi hu
  obtain ⟨ls, hs, ht, hm⟩ := hrun.steps r
  have hn : Lab.new ∉ ls := fun m => by
    have := (Op.may_new (hm _ m)).1
    omega
  obtain ⟨e1, e2⟩ := hs.none p2 hn
  refine ⟨fun k mk s => ?_, e2, Nat.lt_of_lt_of_le p3 hrun.size⟩
  rcases List.mem_append.mp mk with mk | mk
  · exact p1 k mk s
  · rw [List.mem_singleton] at mk
    subst mk
    rw [e1] at ht
    intro m
    have := mem_tagsOf.mpr m
    rw [← ht] at this
    cases this

/-- Exactly one goodbye, when packets are sent for long enough and nothing else happens. -/
theorem Calls.one {env : Env} {d d' : D Ptrs} {h : List Call} (n : Calls env d h d') (hr : Reach env d)
    (hp : Paced h) (ht : ∀ k ∈ h, ∀ t, k.1 = .send t → Rested d.c t) (hs : d.c.shutdown = false) (hd : d.c.disco = false)
    (hf : FitsAlone d.c) (hl : load d.c d.lists ≤ h.length) {r : Nat} (hg : Gone 0 (view d.c d.lists r))
    {w : W} (hw : w ≠ .probing) (hq : r ∈ d.lists.q w) : shown .an r h = 1 ∧ d'.c.recs r = none := by
  have i := hr.inv.rinv
  obtain ⟨x, hx⟩ := i.qrec hq
  have hsz : r < d.lists.size := i.bound r (by rw [hx]; rfl)
  have hgo := n.goodbye hr hsz hg
  have hpos : 0 < shown .an r h := by
    have fin : r ∈ d.lists.q .now ∨ (r ∈ d.lists.q .pause ∧ d.c.shutdown = false) → 0 < shown .an r h := by
      intro hq
      rcases n.drain hr (fun k m => (hp.1 k m).elim fun t e => ⟨t, e, fun _ => (ht k m t e).1⟩) hd hf hq with ⟨k, m, hk⟩ | h
      · exact List.length_pos_of_mem (List.mem_filter.mpr ⟨m, hk⟩)
      · have := waiting_le i
        omega
    cases w with
    | probing => exact absurd rfl hw
    | now => exact fin (.inl hq)
    | pause => exact fin (.inr ⟨hq, hs⟩)
    | publish =>
      -- in the publish queue a withdrawn record stays until its goodbye
      have hk := n.keeps hr hsz (A := Lab.sends)
        (Q := fun n v => (∃ x, v.x = some x ∧ x.rr.ttl = 0 ∧ v.at_ = some .publish) ∨ 0 < n) ?_ (sends_lab hp.1) (.inl ?_)
      · rcases hk.1 with ⟨y, hy, _, hat⟩ | h
        · have := (mem_place (n.reach hr).inv.rinv _).mpr hat
          rw [(n.settle hr hp ht hs hd hf hl).2] at this
          cases this
        · exact h
      · intro n u ls v h hl hp q
        rcases q with ⟨y, hy, h0, hat⟩ | q
        · cases h with
          | touch h => cases hy; exact .inl ⟨_, rfl, by rw [h.rr]; exact h0, hat⟩
          | skip hw => cases hat; rcases hw with h | h <;> cases h
          | shared => cases hat
          | unique => cases hat
          | edit => exact absurd (hl .set (by simp)) (by simp [Lab.sends])
          | publish => exact absurd (hl .set (by simp)) (by simp [Lab.sends])
          | queue => exact absurd (hl .ask (by simp)) (by simp [Lab.sends])
          | bye => exact absurd (hl .bye (by simp)) (by simp [Lab.sends])
          | drop => exact absurd (hl .free (by simp)) (by simp [Lab.sends])
          | sent hw => cases hat; rcases hw with h | h <;> cases h
          | sentBye => right; simp [anns, Lab.isAn]
          | announce => right; simp [anns, Lab.isAn]
          | announceLast => right; simp [anns, Lab.isAn]
          | verify => cases hat
          | propose => cases hat
          | unicast h => cases hy; exact .inl ⟨_, rfl, by rw [h.rr]; exact h0, hat⟩
          | extra => exact .inl ⟨y, hy, h0, hat⟩
        · exact .inr (by omega)
      · rcases hg with ⟨y, hy, h0, _⟩ | ⟨h, _⟩
        · exact ⟨y, hy, h0, (mem_place i _).mp hq⟩
        · have h : d.c.recs r = none := congrArg View.x h
          rw [hx] at h
          cases h
  rcases hgo with ⟨_, _, _, _, h⟩ | ⟨h, h1⟩
  · omega
  · exact ⟨by omega, congrArg View.x h⟩

end Mdns
