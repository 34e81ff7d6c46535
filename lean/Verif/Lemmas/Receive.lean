import Verif.Lemmas.Stages
import Verif.Lemmas.Answers
import Verif.Spec.Receive

/-!
# What a query does to a single record
-/

namespace Mdns

theorem conflictsOf_append (r : Nat) (a b : List Event) : conflictsOf r (a ++ b) = conflictsOf r a + conflictsOf r b :=
  List.countP_append

theorem conflictsOf_received {r : Nat} {an : List Resource} {evs : List Event}
    (he : ∀ e ∈ evs, ∃ a ∈ an, e = Event.received a) : conflictsOf r evs = 0 := by
  refine List.countP_eq_zero.mpr fun e m => ?_
  obtain ⟨a, _, rfl⟩ := he e m
  simp

/-- 1 if the record exists. -/
def Core.alive (c : Core) (r : Nat) : Nat := if (c.recs r).isSome then 1 else 0

theorem alive_at {c c' : Core} {r : Nat} (h : c'.recs r = c.recs r) : c'.alive r = c.alive r := by
  unfold Core.alive
  rw [h]

theorem alive_congr {c c' : Core} (h : c'.recs = c.recs) (r : Nat) : c'.alive r = c.alive r := alive_at (by rw [h])

theorem sendSt_log (c : Core) (l : Lists) (r : Nat) (x : Rec) : (sendSt c l r x).c.log = c.log := by
  unfold sendSt
  split
  · rfl
  · split <;> rfl

theorem sendSt_cls (c : Core) (l : Lists) (r : Nat) (x : Rec) : (sendSt c l r x).c.cls = c.cls := by
  unfold sendSt
  split
  · rfl
  · split <;> rfl

/-- A record being queued, and the others. -/
theorem view_sendSt {c : Core} {l : Lists} (h : RInv c l) {r : Nat} {x : Rec} (hx : c.recs r = some x) (s : Nat) :
    (s ≠ r → view (sendSt c l r x).c (sendSt c l r x).q s = view c l s) ∧
      (x.tries < 4 → view (sendSt c l r x).c (sendSt c l r x).q s = view c l s) ∧
      (¬ x.tries < 4 → view (sendSt c l r x).c (sendSt c l r x).q r =
        ⟨some x, some (if x.unique ≠ 0 then .now else .pause)⟩) := by
  refine ⟨fun e => ?_, fun h4 => ?_, fun h4 => ?_⟩
  · refine view_congr (by rw [sendSt_recs]) fun w => ?_
    unfold sendSt
    split
    · exact Iff.rfl
    · split
      · show s ∈ (l.moveTo .now r).q w ↔ _
        rw [mem_moveTo h]
        simp [e]
      · show s ∈ (l.moveTo .pause r).q w ↔ _
        rw [mem_moveTo h]
        simp [e]
  · unfold sendSt
    rw [if_pos h4]
    rfl
  · refine view_eq (by rw [sendSt_recs]; exact hx) fun w => ?_
    unfold sendSt
    rw [if_neg h4]
    by_cases hu : x.unique ≠ 0
    · rw [if_pos hu, if_pos hu]
      show r ∈ (l.moveTo .now r).q w ↔ _
      rw [mem_moveTo h]
      simp [eq_comm]
    · rw [if_neg hu, if_neg hu]
      show r ∈ (l.moveTo .pause r).q w ↔ _
      rw [mem_moveTo h]
      simp [eq_comm]

theorem view_drop {c : Core} {l : Lists} (h : RInv c l) {r : Nat} {x : Rec} (hx : c.recs r = some x) (hp : x.Probing)
    {c' : Core} (hc : c'.recs = upd c.recs r none) (s : Nat) :
    (s ≠ r → view c' ((l.unprobe r).dead r) s = view c l s) ∧ view c' ((l.unprobe r).dead r) r = ⟨none, none⟩ := by
  have hm := (h.probing r x hx).mpr hp
  have mem : ∀ s v, s ∈ ((l.unprobe r).dead r).q v ↔ s ≠ r ∧ s ∈ l.q v := fun s v => mem_unprobe h hm
  refine ⟨fun e => view_congr (by rw [hc]; exact upd_other _ _ _ _ e) fun w => ?_,
    view_eq (by rw [hc]; exact upd_same ..) fun w => ?_⟩
  · rw [mem]
    simp [e]
  · rw [mem]
    simp

theorem view_of_recs {c c' : Core} {l : Lists} (h : c'.recs = c.recs) (r : Nat) : view c' l r = view c l r :=
  view_congr (by rw [h]) fun _ => Iff.rfl

/-- The question has an answer with other data than the record. -/
def Clash (q : Question) (an : List Resource) (x : Rec) : Prop := ∃ a ∈ an, answers q a = true ∧ aMatch a x.rr = false

/-- The querier knows the record. -/
def Knows (q : Question) (an : List Resource) (x : Rec) : Prop := ∃ a ∈ an, answers q a = true ∧ aMatch a x.rr = true

theorem knows_iff {q : Question} {an : List Resource} {x : Rec} :
    (an.any fun a => answers q a && aMatch a x.rr) = true ↔ Knows q an x := by
  simp [Knows]

/-- Probed as it was made by `mdnsd_unique`. -/
def Rec.Bare (x : Rec) : Prop := x.Probing ∧ x.modified = false

/-- What a question does to a record it is about. -/
structure Fate (q : Question) (an : List Resource) (foreign : Prop) (x : Rec) (u v : View) : Prop where
  clash : foreign → x.Bare → Clash q an x → v = ⟨none, none⟩
  bare : x.Bare → v = u ∨ (v = ⟨none, none⟩ ∧ Clash q an x)
  known : ¬ x.Bare → Knows q an x → v = u
  send : ¬ x.Bare → ¬ Knows q an x → if x.tries < 4 then v = u else
    v = ⟨some x, some (if x.unique ≠ 0 then .now else .pause)⟩

theorem Locals.foreign {env : Env} {c c' : Core} {src : Addr} (h : Locals env c c') (f : Foreign env c src) :
    Foreign env c' src := by
  obtain ⟨a, b, n, rfl, h⟩ := h
  refine f.congr rfl rfl ?_
  rcases h with h | h
  · exact .inl h.1
  · exact .inr h

theorem AnsL.other {env : Env} {src : Addr} {q : Question} {an : List Resource} {rs : List Nat} {s t : ISt}
    (n : AnsL env src q an rs s t) {r : Nat} (hr : r ∉ rs) : view t.c t.l r = view s.c s.l r := by
  induction n with
  | done h => rfl
  | quiet h hx hu hl hf n ih =>
    rw [List.mem_cons, not_or] at hr
    exact (ih hr.2).trans (view_of_recs hl.recs r)
  | conflict h hx hu hl ha n ih =>
    rw [List.mem_cons, not_or] at hr
    exact (ih hr.2).trans ((view_drop h hx ⟨hu.1, hu.2.1⟩ (congrArg (upd · _ none) hl.recs) r).1 hr.1)
  | known h hx hu he hk n ih =>
    rw [List.mem_cons, not_or] at hr
    exact ih hr.2
  | @send r' rs s t x evs h hx hu he hk n ih =>
    rw [List.mem_cons, not_or] at hr
    exact (ih hr.2).trans ((view_sendSt (c := s.c.heard evs) (h.congr rfl rfl rfl) hx r).1 hr.1)

theorem AnsL.foreign {env : Env} {src : Addr} {q : Question} {an : List Resource} {rs : List Nat} {s t : ISt}
    (n : AnsL env src q an rs s t) (f : Foreign env s.c src) : Foreign env t.c src := by
  induction n with
  | done h => exact f
  | quiet h hx hu hl hf n ih => exact ih (hl.foreign f)
  | conflict h hx hu hl ha n ih => exact ih (hl.foreign f)
  | known h hx hu he hk n ih => exact ih f
  | @send r' rs s t x evs h hx hu he hk n ih =>
    refine ih (f.congr ?_ ?_ (.inl ?_)) <;> (show _ = _; unfold sendSt; split)
    all_goals first | rfl | (split <;> rfl)

theorem AnsL.cls {env : Env} {src : Addr} {q : Question} {an : List Resource} {rs : List Nat} {s t : ISt}
    (n : AnsL env src q an rs s t) : t.c.cls = s.c.cls := by
  induction n with
  | done h => rfl
  | quiet h hx hu hl hf n ih => obtain ⟨_, _, _, rfl, _⟩ := hl; exact ih
  | conflict h hx hu hl ha n ih => obtain ⟨_, _, _, rfl, _⟩ := hl; exact ih
  | known h hx hu he hk n ih => exact ih
  | send h hx hu he hk n ih => exact ih.trans (sendSt_cls _ _ _ _)

theorem AnsL.fate {env : Env} {src : Addr} {q : Question} {an : List Resource} {rs : List Nat} {s t : ISt}
    (n : AnsL env src q an rs s t) (nd : rs.Nodup) {r : Nat} (hr : r ∈ rs) {x : Rec} (hx : s.c.recs r = some x) :
    Fate q an (Foreign env s.c src) x (view s.c s.l r) (view t.c t.l r) := by
  induction n with
  | done h => cases hr
  | @quiet r' rs s t y did c1 h hy hu hl hf n ih =>
    rw [List.nodup_cons] at nd
    by_cases e : r = r'
    · subst e
      rw [hx] at hy
      cases hy
      have hv : view t.c t.l r = view s.c s.l r := (n.other nd.1).trans (view_of_recs hl.recs r)
      have hb : x.Bare := ⟨⟨hu.1, hu.2.1⟩, hu.2.2⟩
      refine ⟨fun f _ ⟨a, m, ha, hm⟩ => ?_, fun _ => .inl hv, fun h => absurd hb h, fun h => absurd hb h⟩
      rw [(hf f).1 a m ha] at hm
      cases hm
    · have := ih nd.2 (by simpa [e] using hr) (hl.recs ▸ hx)
      dsimp only at this
      rw [view_of_recs hl.recs r] at this
      exact { this with clash := fun f => this.clash (hl.foreign f) }
  | @conflict r' rs s t y c1 h hy hu hl ha n ih =>
    rw [List.nodup_cons] at nd
    have vd := view_drop h hy ⟨hu.1, hu.2.1⟩ (c' := (c1.heard [.conflict r' y.rr.name y.rr.type]).dropRec r' y)
      (congrArg (upd · _ none) hl.recs) r
    by_cases e : r = r'
    · subst e
      rw [hx] at hy
      cases hy
      have hv : view t.c t.l r = ⟨none, none⟩ := (n.other nd.1).trans vd.2
      have hb : x.Bare := ⟨⟨hu.1, hu.2.1⟩, hu.2.2⟩
      exact ⟨fun _ _ _ => hv, fun _ => .inr ⟨hv, ha⟩, fun h => absurd hb h, fun h => absurd hb h⟩
    · have := ih nd.2 (by simpa [e] using hr) ((congrArg View.x (vd.1 e)).trans hx)
      dsimp only at this
      rw [vd.1 e] at this
      exact { this with clash := fun f => this.clash (hl.foreign f) }
  | @known r' rs s t y evs h hy hu he hk n ih =>
    rw [List.nodup_cons] at nd
    by_cases e : r = r'
    · subst e
      rw [hx] at hy
      cases hy
      have hv : view t.c t.l r = view s.c s.l r := n.other nd.1
      have hb : ¬ x.Bare := fun h => hu ⟨h.1.1, h.1.2, by simp [h.2]⟩
      exact ⟨fun _ h => absurd h hb, fun h => absurd h hb, fun _ _ => hv, fun _ h => absurd (knows_iff.mp hk) h⟩
    · exact ih nd.2 (by simpa [e] using hr) hx
  | @send r' rs s t y evs h hy hu he hk n ih =>
    rw [List.nodup_cons] at nd
    have vs := view_sendSt (c := s.c.heard evs) (h.congr rfl rfl rfl) hy r
    by_cases e : r = r'
    · subst e
      rw [hx] at hy
      cases hy
      have hb : ¬ x.Bare := fun h => hu ⟨h.1.1, h.1.2, by simp [h.2]⟩
      have hv := n.other nd.1
      have hn : ¬ Knows q an x := fun h => by rw [knows_iff.mpr h] at hk; cases hk
      refine ⟨fun _ h => absurd h hb, fun h => absurd h hb, fun _ h => absurd h hn, fun _ _ => ?_⟩
      split
      · rename_i h4
        exact hv.trans (vs.2.1 h4)
      · rename_i h4
        exact hv.trans (vs.2.2 h4)
    · have := ih nd.2 (by simpa [e] using hr) ((congrArg View.x (vs.1 e)).trans hx)
      dsimp only at this
      rw [vs.1 e] at this
      refine { this with clash := fun f => this.clash ?_ }
      refine f.congr ?_ ?_ (.inl ?_) <;> (show _ = _; unfold sendSt; split)
      all_goals first | rfl | (split <;> rfl)

/-- A conflict is reported when a record is freed. -/
theorem AnsL.log {env : Env} {src : Addr} {q : Question} {an : List Resource} {rs : List Nat} {s t : ISt}
    (n : AnsL env src q an rs s t) (r : Nat) :
    ∃ evs, t.c.log = s.c.log ++ evs ∧ conflictsOf r evs + t.c.alive r = s.c.alive r := by
  induction n with
  | done h => exact ⟨[], by simp, by simp [conflictsOf]⟩
  | quiet h hx hu hl hf n ih =>
    obtain ⟨evs, e, hc⟩ := ih
    obtain ⟨_, _, _, rfl, _⟩ := hl
    exact ⟨evs, e, hc⟩
  | @conflict r' rs s t y c1 h hy hu hl ha n ih =>
    obtain ⟨evs, e, hc⟩ := ih
    obtain ⟨a, b, k, rfl, _⟩ := hl
    refine ⟨[.conflict r' y.rr.name y.rr.type] ++ evs, by rw [e]; exact List.append_assoc .., ?_⟩
    rw [conflictsOf_append]
    by_cases e : r = r'
    · subst e
      have h0 : Core.alive (((({ s.c with locals := a, refreshed := b, nifs := k } : Core).heard
          [.conflict r y.rr.name y.rr.type]).dropRec r y)) r = 0 := by
        unfold Core.alive Core.dropRec
        simp [upd_same]
      have h1 : s.c.alive r = 1 := by unfold Core.alive; rw [hy]; rfl
      dsimp only at hc
      rw [h0] at hc
      rw [h1]
      have : conflictsOf r [.conflict r y.rr.name y.rr.type] = 1 := by simp [conflictsOf]
      omega
    · have h0 : Core.alive (((({ s.c with locals := a, refreshed := b, nifs := k } : Core).heard
          [.conflict r' y.rr.name y.rr.type]).dropRec r' y)) r = s.c.alive r := alive_at (upd_other _ _ _ _ e)
      dsimp only at hc
      rw [h0] at hc
      have : conflictsOf r [.conflict r' y.rr.name y.rr.type] = 0 := by simp [conflictsOf, Ne.symm e]
      omega
  | @known r' rs s t y evs' h hy hu he hk n ih =>
    obtain ⟨evs, e, hc⟩ := ih
    refine ⟨evs' ++ evs, by rw [e]; exact List.append_assoc .., ?_⟩
    rw [conflictsOf_append, conflictsOf_received he, Nat.zero_add]
    exact hc
  | @send r' rs s t y evs' h hy hu he hk n ih =>
    obtain ⟨evs, e, hc⟩ := ih
    refine ⟨evs' ++ evs, by rw [e]; show (sendSt _ _ _ _).c.log ++ _ = _; rw [sendSt_log]; exact List.append_assoc .., ?_⟩
    rw [conflictsOf_append, conflictsOf_received he, Nat.zero_add, hc]
    exact alive_congr (sendSt_recs _ _ _ _) r

theorem SendL.fate {rs : List Nat} {c c' : Core} {l l' : Lists} (n : SendL rs c l c' l') {r : Nat} {x : Rec}
    (hx : c.recs r = some x) :
    (r ∉ rs → view c' l' r = view c l r) ∧
      (r ∈ rs → if x.tries < 4 then view c' l' r = view c l r else
        view c' l' r = ⟨some x, some (if x.unique ≠ 0 then .now else .pause)⟩) := by
  induction n with
  | done h => exact ⟨fun _ => rfl, fun h => by cases h⟩
  | @send r' rs c c' l l' y h hy n ih =>
    have vs := view_sendSt h hy r
    obtain ⟨i1, i2⟩ := ih (by rw [sendSt_recs]; exact hx)
    refine ⟨fun hr => ?_, fun hr => ?_⟩
    · rw [List.mem_cons, not_or] at hr
      exact (i1 hr.2).trans (vs.1 hr.1)
    · by_cases e : r = r'
      · subst e
        rw [hx] at hy
        cases hy
        by_cases hm : r ∈ rs
        · have := i2 hm
          split at this
          · rename_i h4
            rw [if_pos h4]
            exact this.trans (vs.2.1 h4)
          · rename_i h4
            rw [if_neg h4]
            exact this
        · split
          · rename_i h4
            exact (i1 hm).trans (vs.2.1 h4)
          · rename_i h4
            exact (i1 hm).trans (vs.2.2 h4)
      · have := i2 (by simpa [e] using hr)
        rw [vs.1 e] at this
        exact this

theorem SendL.frame {rs : List Nat} {c c' : Core} {l l' : Lists} (n : SendL rs c l c' l') :
    c'.log = c.log ∧ c'.cls = c.cls ∧ c'.recs = c.recs := by
  induction n with
  | done h => exact ⟨rfl, rfl, rfl⟩
  | send h hx n ih =>
    exact ⟨ih.1.trans (sendSt_log _ _ _ _), ih.2.1.trans (sendSt_cls _ _ _ _), ih.2.2.trans (sendSt_recs _ _ _ _)⟩

theorem mem_matching {c : Core} {l : Lists} (h : RInv c l) {r : Nat} {x : Rec} (hx : c.recs r = some x) {host : Bytes}
    {type : Nat} : r ∈ c.matching host type ↔ x.rr.name = host ∧ typeFits type x.rr := by
  have hi : c.isRec host type r = x.rr.is host type := by simp only [Core.isRec, hx]
  unfold Core.matching
  rw [List.mem_filter, hi, is_iff]
  refine ⟨And.right, fun h' => ⟨?_, h'⟩⟩
  have := h.mem r x hx
  rw [h'.1] at this
  exact this

theorem matching_nodup {c : Core} {l : Lists} (h : RInv c l) (host : Bytes) (type : Nat) : (c.matching host type).Nodup :=
  (h.pnodup _).filter _

/-- What one question does to a record. -/
structure QFate (q : Question) (an : List Resource) (cls : Nat) (foreign : Prop) (x : Rec) (u v : View) : Prop where
  other : ¬ q.about cls x.rr → v = u
  fate : q.about cls x.rr → q.name ≠ discoName → Fate q an foreign x u v
  disco : q.about cls x.rr → q.name = discoName → if x.tries < 4 then v = u else
    v = ⟨some x, some (if x.unique ≠ 0 then .now else .pause)⟩

theorem InQ.fate {env : Env} {m : Msg} {src : Addr} {q : Question} {did did' : Bool} {c c' : Core} {l l' : Lists}
    (n : InQ env m src q did c l did' c' l') (h : RInv c l) {r : Nat} {x : Rec} (hx : c.recs r = some x) :
    QFate q m.an c.cls (Foreign env c src) x (view c l r) (view c' l' r) := by
  have mm := fun {host : Bytes} {type : Nat} => mem_matching h hx (host := host) (type := type)
  cases n with
  | none hn =>
    have : ¬ q.about c.cls x.rr := by
      rintro ⟨h1, h2⟩
      rcases hn with hn | hn
      · exact hn h1
      · have := mm.mpr h2
        rw [hn] at this
        cases this
    exact ⟨fun _ => rfl, fun h => absurd h this, fun h => absurd h this⟩
  | disco hc hq hm n =>
    have f := n.fate (r := r) (x := x) hx
    refine ⟨fun hn => f.1 fun m => hn ⟨hc, mm.mp m⟩, fun _ h => absurd hq h, fun ha _ => f.2 (mm.mpr ha.2)⟩
  | @multi t hc hq hm n hp =>
    refine ⟨fun hn => n.other fun m => hn ⟨hc, mm.mp m⟩, fun ha _ => n.fate (matching_nodup h _ _) (mm.mpr ha.2) hx,
      fun _ h => absurd h hq⟩
  | @uni r' rs t hc hq hm n hp =>
    have e : view { t.c with uanswers := ⟨m.id, src, r'⟩ :: t.c.uanswers } t.l r = view t.c t.l r := view_of_recs rfl r
    rw [e]
    refine ⟨fun hn => n.other fun m => hn ⟨hc, mm.mp m⟩, fun ha _ => n.fate (matching_nodup h _ _) (mm.mpr ha.2) hx,
      fun _ h => absurd h hq⟩

theorem InQ.log {env : Env} {m : Msg} {src : Addr} {q : Question} {did did' : Bool} {c c' : Core} {l l' : Lists}
    (n : InQ env m src q did c l did' c' l') (r : Nat) :
    ∃ evs, c'.log = c.log ++ evs ∧ conflictsOf r evs + c'.alive r = c.alive r := by
  cases n with
  | none hn => exact ⟨[], by simp, by simp [conflictsOf]⟩
  | disco hc hq hm n => exact ⟨[], by rw [n.frame.1]; simp, by rw [alive_congr n.frame.2.2]; simp [conflictsOf, Core.alive]⟩
  | multi _ _ _ n => exact n.log r
  | uni _ _ _ n => exact n.log r

theorem InQ.around {env : Env} {m : Msg} {src : Addr} {q : Question} {did did' : Bool} {c c' : Core} {l l' : Lists}
    (n : InQ env m src q did c l did' c' l') : c'.cls = c.cls ∧ (Foreign env c src → Foreign env c' src) := by
  cases n with
  | none hn => exact ⟨rfl, id⟩
  | disco hc hq hm n =>
    have e := n.recfree
    refine ⟨n.frame.2.1, fun f => f.congr ?_ ?_ (.inl ?_)⟩
    · exact (congrArg Core.addr e : c'.recfree.addr = _)
    · exact (congrArg Core.addr6 e : c'.recfree.addr6 = _)
    · exact (congrArg Core.locals e : c'.recfree.locals = _)
  | multi _ _ _ n => exact ⟨n.cls, n.foreign⟩
  | uni _ _ _ n => exact ⟨n.cls, fun f => (n.foreign f).congr rfl rfl (.inl rfl)⟩

theorem InQs.log {env : Env} {m : Msg} {src : Addr} {qs : List Question} {did : Bool} {c c' : Core} {l l' : Lists}
    (n : InQs env m src qs did c l c' l') (r : Nat) :
    ∃ evs, c'.log = c.log ++ evs ∧ conflictsOf r evs + c'.alive r = c.alive r := by
  induction n with
  | nil => exact ⟨[], by simp, by simp [conflictsOf]⟩
  | cons _ h _ ih =>
    obtain ⟨e1, l1, a1⟩ := h.log r
    obtain ⟨e2, l2, a2⟩ := ih
    refine ⟨e1 ++ e2, by rw [l2, l1, List.append_assoc], ?_⟩
    rw [conflictsOf_append]
    omega

theorem InQs.none {env : Env} {m : Msg} {src : Addr} {qs : List Question} {did : Bool} {c c' : Core} {l l' : Lists}
    (n : InQs env m src qs did c l c' l') {r : Nat} (h : c.recs r = none) : c'.recs r = none := by
  obtain ⟨evs, _, e⟩ := n.log r
  have h0 : c.alive r = 0 := by unfold Core.alive; rw [h]; rfl
  have : c'.alive r = 0 := by omega
  unfold Core.alive at this
  cases hc : c'.recs r with
  | none => rfl
  | some y => rw [hc] at this; cases this

/-- A record stays as it is or is freed by a conflict. -/
theorem QFate.x {q : Question} {an : List Resource} {cls : Nat} {f : Prop} {x : Rec} {u v : View}
    (h : QFate q an cls f x u v) (hu : u.x = some x) :
    v.x = some x ∨ (v = ⟨.none, .none⟩ ∧ x.Bare ∧ q.about cls x.rr ∧ q.name ≠ discoName ∧ Clash q an x) := by
  by_cases ha : q.about cls x.rr
  · by_cases hq : q.name = discoName
    · have := h.disco ha hq
      split at this
      · rw [this]; exact .inl hu
      · rw [this]; exact .inl rfl
    · have f := h.fate ha hq
      by_cases hb : x.Bare
      · rcases f.bare hb with e | ⟨e, hc⟩
        · rw [e]; exact .inl hu
        · exact .inr ⟨e, hb, ha, hq, hc⟩
      · by_cases hk : Knows q an x
        · rw [f.known hb hk]; exact .inl hu
        · have := f.send hb hk
          split at this
          · rw [this]; exact .inl hu
          · rw [this]; exact .inl rfl
  · rw [h.other ha]
    exact .inl hu

/-- A record is freed by a query only for a conflict. -/
theorem InQs.freed {env : Env} {m : Msg} {src : Addr} {qs : List Question} {did : Bool} {c c' : Core} {l l' : Lists}
    (n : InQs env m src qs did c l c' l') {r : Nat} {x : Rec} (hx : c.recs r = some x) :
    c'.recs r = some x ∨ (c'.recs r = Option.none ∧ x.Bare ∧ ∃ q ∈ qs, q.about c.cls x.rr ∧ q.name ≠ discoName ∧ Clash q m.an x) := by
  induction n with
  | nil => exact .inl hx
  | @cons q qs did did' c c1 c' l l1 l' i h n ih =>
    rcases (h.fate i.rinv hx).x hx with e | ⟨e, hb, hq⟩
    · rcases ih e with h' | ⟨h1, h2, q', m', h3⟩
      · exact .inl h'
      · rw [h.around.1] at h3
        exact .inr ⟨h1, h2, q', List.mem_cons_of_mem _ m', h3⟩
    · exact .inr ⟨n.none (congrArg View.x e), hb, q, List.mem_cons_self .., hq⟩

/-- A conflict frees the record. -/
theorem InQs.conflict {env : Env} {m : Msg} {src : Addr} {qs : List Question} {did : Bool} {c c' : Core} {l l' : Lists}
    (n : InQs env m src qs did c l c' l') (f : Foreign env c src) {r : Nat} {x : Rec} (hx : c.recs r = some x) (hb : x.Bare)
    {q : Question} (hm : q ∈ qs) (ha : q.about c.cls x.rr) (hq : q.name ≠ discoName) (hc : Clash q m.an x) :
    c'.recs r = Option.none := by
  induction n with
  | nil => cases hm
  | @cons q' qs did did' c c1 c' l l1 l' i h n ih =>
    rcases (h.fate i.rinv hx).x hx with e | ⟨e, _⟩
    · rcases List.mem_cons.mp hm with rfl | hm
      · have := ((h.fate i.rinv hx).fate ha hq).clash f hb hc
        exact n.none (congrArg View.x this)
      · refine ih (h.around.2 f) e hm ?_
        rw [h.around.1]
        exact ha
    · exact n.none (congrArg View.x e)

/-- Not queued. -/
theorem InQs.known {env : Env} {m : Msg} {src : Addr} {qs : List Question} {did : Bool} {c c' : Core} {l l' : Lists}
    (n : InQs env m src qs did c l c' l') {r : Nat} {x : Rec} (hx : c.recs r = some x)
    (hk : ∀ q ∈ qs, q.about c.cls x.rr → q.name ≠ discoName ∧ Knows q m.an x) :
    view c' l' r = view c l r ∨ view c' l' r = ⟨.none, .none⟩ := by
  induction n with
  | nil => exact .inl rfl
  | @cons q' qs did did' c c1 c' l l1 l' i h n ih =>
    have f := h.fate i.rinv hx
    have hv : view c1 l1 r = view c l r ∨ view c1 l1 r = ⟨.none, .none⟩ := by
      by_cases ha : q'.about c.cls x.rr
      · obtain ⟨hq, hk⟩ := hk q' (List.mem_cons_self ..) ha
        by_cases hb : x.Bare
        · rcases (f.fate ha hq).bare hb with e | e
          · exact .inl e
          · exact .inr e.1
        · exact .inl ((f.fate ha hq).known hb hk)
      · exact .inl (f.other ha)
    rcases hv with e | e
    · have := ih ((congrArg View.x e).trans hx) (fun q m' => by
        rw [h.around.1]
        exact hk q (List.mem_cons_of_mem _ m'))
      rw [e] at this
      exact this
    · right
      have h0 := n.none (congrArg View.x e)
      have i1 := n.inv (h.inv i)
      refine view_eq h0 fun w => ⟨fun m => ?_, fun h => by cases h⟩
      have := i1.rinv.qlive w r m
      rw [h0] at this
      cases this

/-- Queued. -/
theorem InQs.queued {env : Env} {m : Msg} {src : Addr} {qs : List Question} {did : Bool} {c c' : Core} {l l' : Lists}
    (n : InQs env m src qs did c l c' l') {r : Nat} {x : Rec} (hx : c.recs r = some x) (h4 : ¬ x.tries < 4)
    (hb : ¬ x.Bare) (hk : ∀ q ∈ qs, q.about c.cls x.rr → ¬ Knows q m.an x)
    (h : (∃ q ∈ qs, q.about c.cls x.rr) ∨ view c l r = ⟨some x, some (if x.unique ≠ 0 then .now else .pause)⟩) :
    view c' l' r = ⟨some x, some (if x.unique ≠ 0 then .now else .pause)⟩ := by
  induction n with
  | nil =>
    rcases h with ⟨_, m, _⟩ | h
    · cases m
    · exact h
  | @cons q' qs did did' c c1 c' l l1 l' i hq n ih =>
    have f := hq.fate i.rinv hx
    have e : c1.recs r = some x := by
      rcases f.x hx with e | ⟨_, hb', _⟩
      · exact e
      · exact absurd hb' hb
    refine ih e (fun q m' => by rw [hq.around.1]; exact hk q (List.mem_cons_of_mem _ m')) ?_
    rw [hq.around.1]
    by_cases ha : q'.about c.cls x.rr
    · right
      have : view c1 l1 r = ⟨some x, some (if x.unique ≠ 0 then .now else .pause)⟩ := by
        by_cases hd : q'.name = discoName
        · have := f.disco ha hd
          rw [if_neg h4] at this
          exact this
        · have := (f.fate ha hd).send hb (hk q' (List.mem_cons_self ..) ha)
          rw [if_neg h4] at this
          exact this
      exact this
    · rcases h with ⟨q, m, hq'⟩ | h
      · rcases List.mem_cons.mp m with rfl | m
        · exact absurd hq' ha
        · exact .inl ⟨q, m, hq'⟩
      · exact .inr ((f.other ha).trans h)

end Mdns
