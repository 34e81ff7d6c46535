import Verif.Lemmas.Trace
import Verif.Spec.History

/-!
# What calls do to a single record

A record is seen together with the queue it is in. Every call is, for every record, a chain of
the steps below; the labels tell what happened, in particular every time the record is put in
a packet.
-/

namespace Mdns

/-- A record and the queue it is in. -/
structure View where
  x : Option Rec
  at_ : Option W

/-- The queue a record is in. -/
def Lists.place (l : Lists) (r : Nat) : Option W :=
  if r ∈ l.q .probing then some .probing
  else if r ∈ l.q .now then some .now
  else if r ∈ l.q .pause then some .pause
  else if r ∈ l.q .publish then some .publish
  else none

/-- A record of a daemon. -/
def view (c : Core) (l : Lists) (r : Nat) : View := ⟨c.recs r, l.place r⟩

/-- What may happen to a record. -/
inductive Lab where
  /-- it is made -/
  | new
  /-- its data are set -/
  | set
  /-- it is queued to be sent -/
  | ask
  /-- it is being withdrawn -/
  | bye
  /-- it is freed -/
  | free
  /-- it is taken to be unique -/
  | verify
  /-- it is put in a section of a packet, from a queue -/
  | put (s : Section) (w : Option W)
deriving DecidableEq

/-- The record is being probed. -/
def Rec.Probing (x : Rec) : Prop := x.unique ≠ 0 ∧ x.unique < 5

/-- The same record, sent at another time. -/
structure Keep (x x' : Rec) : Prop where
  rr : x'.rr = x.rr
  unique : x'.unique = x.unique
  tries : x'.tries = x.tries

/-- The same record with other data. -/
structure Edit (x x' : Rec) : Prop where
  name : x'.rr.name = x.rr.name
  type : x'.rr.type = x.rr.type
  ttl : x'.rr.ttl = x.rr.ttl
  unique : x'.unique = x.unique
  sent : x'.lastSent = x.lastSent

/-- A queue for answers. -/
def W.answers (w : W) : Prop := w = .now ∨ w = .pause

/-- One step. -/
inductive RStep : View → List Lab → View → Prop
  | touch {x x' : Rec} {p : Option W} (h : Keep x x') (hs : x.Probing) :
      RStep ⟨some x, p⟩ [] ⟨some x', p⟩
  | skip {x : Rec} {w : W} (hw : w.answers) : RStep ⟨some x, some w⟩ [] ⟨some x, none⟩
  | shared {x : Rec} (hu : x.unique = 0) (ht : x.tries = 0) : RStep ⟨none, none⟩ [.new] ⟨some x, none⟩
  | unique {x : Rec} (hu : x.unique = 1) (ht : x.tries = 0) : RStep ⟨none, none⟩ [.new] ⟨some x, some .probing⟩
  | edit {x x' : Rec} {p : Option W} (hp : x.Probing) (h : Edit x x') (ht : x'.tries = x.tries) :
      RStep ⟨some x, p⟩ [.set] ⟨some x', p⟩
  | publish {x x' : Rec} {p : Option W} (hp : ¬ x.Probing) (h : Edit x x') (ht : x'.tries = 0) :
      RStep ⟨some x, p⟩ [.set] ⟨some x', some .publish⟩
  | queue {x : Rec} {p : Option W} {w : W} (hp : ¬ x.Probing) (h : 4 ≤ x.tries ∨ p = none) (hw : w.answers) :
      RStep ⟨some x, p⟩ [.ask] ⟨some x, some w⟩
  | bye {x : Rec} {p : Option W} (hp : ¬ x.Probing) : RStep ⟨some x, p⟩ [.bye] ⟨some x.bye, p⟩
  | drop {x : Rec} {p : Option W} : RStep ⟨some x, p⟩ [.free] ⟨none, none⟩
  | sent {x x' : Rec} {w : W} (hw : w.answers) (ht : x.rr.ttl ≠ 0) (h : Keep x x') :
      RStep ⟨some x, some w⟩ [.put .an (some w)] ⟨some x', none⟩
  | sentBye {x : Rec} {w : W} (hw : w ≠ .probing) (ht : x.rr.ttl = 0) :
      RStep ⟨some x, some w⟩ [.put .an (some w)] ⟨none, none⟩
  | announce {x x' : Rec} (ht : x.rr.ttl ≠ 0) (h4 : x.tries + 1 < 4) (hr : x'.rr = x.rr) (hu : x'.unique = x.unique)
      (htr : x'.tries = x.tries + 1) :
      RStep ⟨some x, some .publish⟩ [.put .an (some .publish)] ⟨some x', some .publish⟩
  | announceLast {x x' : Rec} (ht : x.rr.ttl ≠ 0) (h4 : ¬ x.tries + 1 < 4) (hr : x'.rr = x.rr)
      (hu : x'.unique = x.unique) (htr : x'.tries = x.tries + 1) :
      RStep ⟨some x, some .publish⟩ [.put .an (some .publish)] ⟨some x', none⟩
  | verify {x x' : Rec} (hu : x.unique = 4) (hr : x'.rr = x.rr) (hu' : x'.unique = 5) (ht : x'.tries = 0) :
      RStep ⟨some x, some .probing⟩ [.verify] ⟨some x', some .publish⟩
  | propose {x x' : Rec} (hu : x.unique ≠ 0 ∧ x.unique < 4) (hr : x'.rr = x.rr) (hu' : x'.unique = x.unique + 1)
      (ht : x'.tries = x.tries) :
      RStep ⟨some x, some .probing⟩ [.put .ns (some .probing)] ⟨some x', some .probing⟩
  | unicast {x x' : Rec} {p : Option W} (h : Keep x x') : RStep ⟨some x, p⟩ [.put .an none] ⟨some x', p⟩
  | extra {x : Rec} {p : Option W} : RStep ⟨some x, p⟩ [.put .ar none] ⟨some x, p⟩

/-- Several steps. -/
inductive RSteps : View → List Lab → View → Prop
  | refl (v : View) : RSteps v [] v
  | step {u v w : View} {a b : List Lab} (h : RStep u a v) (n : RSteps v b w) : RSteps u (a ++ b) w

theorem RSteps.one {u v : View} {a : List Lab} (h : RStep u a v) : RSteps u a v := by
  simpa using RSteps.step h (.refl v)

theorem RSteps.trans {u v w : View} {a b : List Lab} (h : RSteps u a v) (h' : RSteps v b w) : RSteps u (a ++ b) w := by
  induction h with
  | refl => exact h'
  | step h _ ih => rw [List.append_assoc]; exact .step h (ih h')

/-- The sections a record was put in. -/
def puts (ls : List Lab) : List Section := ls.filterMap fun a => match a with | .put s _ => some s | _ => none

theorem puts_append (a b : List Lab) : puts (a ++ b) = puts a ++ puts b := List.filterMap_append ..

/-- The entries of one record. -/
def tagsOf (ts : List (Section × Nat)) (r : Nat) : List Section := (ts.filter fun t => t.2 == r).map (·.1)

theorem tagsOf_append (a b : List (Section × Nat)) (r : Nat) : tagsOf (a ++ b) r = tagsOf a r ++ tagsOf b r := by
  simp [tagsOf]

/-- For every record a chain of steps with permitted labels, in which the records are put in
a packet as listed. -/
structure Run (P : Nat → Lab → Prop) (c : Core) (l : Lists) (ts : List (Section × Nat)) (c' : Core) (l' : Lists) :
    Prop where
  size : l.size ≤ l'.size
  steps : ∀ r, ∃ ls, RSteps (view c l r) ls (view c' l' r) ∧ puts ls = tagsOf ts r ∧ ∀ a ∈ ls, P r a

theorem Run.trans {P : Nat → Lab → Prop} {c c1 c' : Core} {l l1 l' : Lists} {ts ts' : List (Section × Nat)}
    (h : Run P c l ts c1 l1) (h' : Run P c1 l1 ts' c' l') : Run P c l (ts ++ ts') c' l' := by
  refine ⟨Nat.le_trans h.size h'.size, fun r => ?_⟩
  obtain ⟨a, n, e, p⟩ := h.steps r
  obtain ⟨b, n', e', p'⟩ := h'.steps r
  refine ⟨a ++ b, n.trans n', ?_, fun x m => ?_⟩
  · rw [puts_append, tagsOf_append, e, e']
  · rcases List.mem_append.mp m with m | m
    · exact p x m
    · exact p' x m

theorem Run.mono {P P' : Nat → Lab → Prop} {c c' : Core} {l l' : Lists} {ts : List (Section × Nat)}
    (h : Run P c l ts c' l') (hp : ∀ r a, P r a → P' r a) : Run P' c l ts c' l' := by
  refine ⟨h.size, fun r => ?_⟩
  obtain ⟨a, n, e, p⟩ := h.steps r
  exact ⟨a, n, e, fun x m => hp r x (p x m)⟩

theorem place_congr {l l' : Lists} {r : Nat} (h : ∀ w, r ∈ l'.q w ↔ r ∈ l.q w) : l'.place r = l.place r := by
  unfold Lists.place
  simp only [h]

theorem place_eq {l : Lists} {r : Nat} {p : Option W} (h : ∀ w, r ∈ l.q w ↔ p = some w) : l.place r = p := by
  unfold Lists.place
  simp only [h]
  cases p with
  | none => simp
  | some w => cases w <;> simp

theorem mem_place {c : Core} {l : Lists} (h : RInv c l) {r : Nat} (w : W) : r ∈ l.q w ↔ l.place r = some w := by
  constructor
  · intro m
    refine place_eq fun v => ⟨fun m' => ?_, fun e => ?_⟩
    · rw [h.disj _ _ _ m m']
    · cases e
      exact m
  · intro e
    unfold Lists.place at e
    split at e
    · cases e; assumption
    · split at e
      · cases e; assumption
      · split at e
        · cases e; assumption
        · split at e
          · cases e; assumption
          · cases e

theorem view_eq {c : Core} {l : Lists} {r : Nat} {x : Option Rec} {p : Option W} (hx : c.recs r = x)
    (h : ∀ w, r ∈ l.q w ↔ p = some w) : view c l r = ⟨x, p⟩ := by
  unfold view
  rw [hx, place_eq h]

theorem view_mem {c : Core} {l : Lists} (h : RInv c l) {r : Nat} {x : Rec} (hx : c.recs r = some x) {w : W}
    (m : r ∈ l.q w) : view c l r = ⟨some x, some w⟩ := by
  unfold view
  rw [hx, (mem_place h w).mp m]

theorem view_congr {c c' : Core} {l l' : Lists} {r : Nat} (hx : c'.recs r = c.recs r)
    (h : ∀ w, r ∈ l'.q w ↔ r ∈ l.q w) : view c' l' r = view c l r := by
  unfold view
  rw [hx, place_congr h]

/-- Nothing happens to any record. -/
theorem Run.same {P : Nat → Lab → Prop} {c c' : Core} {l l' : Lists} (hr : c'.recs = c.recs) (hs : l.size ≤ l'.size)
    (hq : ∀ r w, r ∈ l'.q w ↔ r ∈ l.q w) : Run P c l [] c' l' := by
  refine ⟨hs, fun r => ⟨[], ?_, rfl, by simp⟩⟩
  have e : view c' l' r = view c l r := view_congr (by rw [hr]) (hq r)
  rw [e]
  exact .refl _

theorem Run.idle {P : Nat → Lab → Prop} {c c' : Core} {l : Lists} (hr : c'.recs = c.recs) : Run P c l [] c' l :=
  .same hr (Nat.le_refl _) fun _ _ => Iff.rfl

theorem Run.pre {P : Nat → Lab → Prop} {c c1 c' : Core} {l l' : Lists} {ts : List (Section × Nat)}
    (hr : c1.recs = c.recs) (h : Run P c1 l ts c' l') : Run P c l ts c' l' := by
  have := Run.trans (Run.idle (P := P) (l := l) hr) h
  simpa using this

theorem Run.rest {P : Nat → Lab → Prop} {c c' : Core} {l : Lists} (e : c'.rest = c.rest) : Run P c l [] c' l :=
  .idle (congrArg Core.recs e : c'.rest.recs = c.rest.recs)

/-- Something happens to one record only. -/
theorem Run.at {P : Nat → Lab → Prop} {c c' : Core} {l l' : Lists} (r : Nat) {ls : List Lab} (hs : l.size ≤ l'.size)
    (ho : ∀ s, s ≠ r → c'.recs s = c.recs s ∧ ∀ w, s ∈ l'.q w ↔ s ∈ l.q w)
    (n : RSteps (view c l r) ls (view c' l' r)) (hp : ∀ a ∈ ls, P r a) :
    Run P c l ((puts ls).map fun s => (s, r)) c' l' := by
  refine ⟨hs, fun s => ?_⟩
  by_cases e : s = r
  · subst e
    refine ⟨ls, n, ?_, hp⟩
    unfold tagsOf
    rw [List.filter_eq_self.mpr (by simp), List.map_map]
    exact (List.map_id _).symm
  · refine ⟨[], ?_, ?_, by simp⟩
    · rw [view_congr (ho s e).1 (ho s e).2]
      exact .refl _
    · unfold tagsOf
      rw [List.filter_eq_nil_iff.mpr (by simpa using fun _ _ => Ne.symm e)]
      rfl

/-! ### The parts of calls -/

theorem Run.send {P : Nat → Lab → Prop} {c : Core} {l : Lists} (h : RInv c l) {r : Nat} {x : Rec}
    (hx : c.recs r = some x) (hp : P r .ask) : Run P c l [] (sendSt c l r x).c (sendSt c l r x).q := by
  by_cases h4 : x.tries < 4
  · have e : sendSt c l r x = ⟨{ c with publish := c.now }, l⟩ := by unfold sendSt; rw [if_pos h4]
    rw [e]
    exact .idle rfl
  · have hu : ¬ x.Probing := fun hu => h4 (by rw [h.tries r x hx hu]; omega)
    have go : ∀ w : W, w.answers → Run P c l [] c (l.moveTo w r) := by
      intro w hw
      refine Run.at (ls := [.ask]) r (Nat.le_refl _) (fun s e => ⟨rfl, fun v => ?_⟩) ?_ ?_
      · rw [mem_moveTo h]
        simp [e]
      · rw [view_eq (c := c) (l := l.moveTo w r) (x := some x) (p := some w) hx fun v => ?_]
        · show RSteps ⟨c.recs r, l.place r⟩ _ _
          rw [hx]
          exact .one (.queue hu (.inl (by omega)) hw)
        · rw [mem_moveTo h]
          simp [eq_comm]
      · simpa using hp
    unfold sendSt
    rw [if_neg h4]
    split
    · exact go .now (.inl rfl)
    · have := go .pause (.inr rfl)
      exact ⟨this.size, fun s => (this.steps s)⟩

theorem Run.publish {P : Nat → Lab → Prop} {c : Core} {l : Lists} (h : RInv c l) {r : Nat} {x x' : Rec}
    (hx : c.recs r = some x) (hr : SameRole x x') (ht : x'.rr.ttl = x.rr.ttl) (hp : P r .set) :
    Run P c l [] (setSt c l r x').c (setSt c l r x').q := by
  have hu : x'.unique = x.unique := hr.unique
  unfold setSt publishSt
  simp only [upd_upd]
  split
  · rename_i hpr
    rw [hu] at hpr
    refine Run.at (ls := [.set]) r (Nat.le_refl _) (fun s e => ⟨upd_other _ _ _ _ e, fun v => Iff.rfl⟩) ?_ (by simpa)
    show RSteps ⟨c.recs r, l.place r⟩ _ ⟨upd c.recs r _ r, l.place r⟩
    rw [hx, upd_same]
    exact .one (.edit hpr ⟨hr.name, hr.type, ht, hr.unique, hr.sent⟩ hr.tries)
  · rename_i hpr
    rw [hu] at hpr
    refine Run.at (ls := [.set]) r (Nat.le_refl _) (fun s e => ⟨upd_other _ _ _ _ e, fun v => ?_⟩) ?_ (by simpa)
    · rw [mem_moveTo h]
      simp [e]
    · rw [view_eq (l := l.moveTo .publish r) (p := some .publish) (upd_same ..) fun v => ?_]
      · show RSteps ⟨c.recs r, l.place r⟩ _ _
        rw [hx]
        exact .one (.publish hpr ⟨hr.name, hr.type, ht, hr.unique, hr.sent⟩ rfl)
      · rw [mem_moveTo h]
        simp [eq_comm]

theorem Run.done {P : Nat → Lab → Prop} {c : Core} {l : Lists} (h : RInv c l) {r : Nat} {x : Rec}
    (hx : c.recs r = some x) (hp : P r .ask) (hb : P r .bye) (hf : P r .free) :
    Run P c l [] (doneSt c l r x).c (doneSt c l r x).q := by
  unfold doneSt
  split
  · rename_i hpr
    have hm := (h.probing r x hx).mpr hpr
    have mem : ∀ s v, s ∈ ((l.set .probing ((l.q .probing).erase r)).dead r).q v ↔ s ≠ r ∧ s ∈ l.q v :=
      fun s v => mem_unprobe h hm
    refine Run.at (ls := [.free]) r (Nat.le_refl _) (fun s e => ⟨upd_other _ _ _ _ e, fun v => ?_⟩) ?_ (by simpa)
    · rw [mem]
      simp [e]
    · rw [view_eq (l := (l.set .probing ((l.q .probing).erase r)).dead r) (p := none)
        (upd_same .. : (c.dropRec r x).recs r = none) fun v => ?_]
      · show RSteps ⟨c.recs r, l.place r⟩ _ _
        rw [hx]
        exact .one .drop
      · rw [mem]
        simp
  · rename_i hpr
    have h1 : RInv { c with recs := upd c.recs r (some x.bye) } l := h.role hx ⟨rfl, rfl, rfl, rfl, rfl, rfl⟩
    refine Run.trans (ts := []) (c1 := { c with recs := upd c.recs r (some x.bye) }) (l1 := l) ?_
      (Run.send h1 (upd_same ..) hp)
    refine Run.at (ls := [.bye]) r (Nat.le_refl _) (fun s e => ⟨upd_other _ _ _ _ e, fun v => Iff.rfl⟩) ?_ (by simpa)
    show RSteps ⟨c.recs r, l.place r⟩ _ ⟨upd c.recs r _ r, l.place r⟩
    rw [hx, upd_same]
    exact .one (.bye hpr)

theorem Run.byeSt {P : Nat → Lab → Prop} {c : Core} {l : Lists} (h : RInv c l) {r : Nat} {x : Rec}
    (hx : c.recs r = some x) (hq : ∀ w, r ∉ l.q w) (hp : P r .ask) (hb : P r .bye) :
    Run P c l [] (byeSt c l r x).c (byeSt c l r x).q := by
  have hpr : ¬ x.Probing := fun hu => hq _ ((h.probing r x hx).mpr hu)
  have mem : ∀ w s, s ∈ (l.set .now (r :: l.q .now)).q w ↔ (w = .now ∧ s = r) ∨ s ∈ l.q w := by
    intro w s
    unfold Lists.set
    simp only
    split
    · rename_i e
      subst e
      simp
    · rename_i e
      simp [e]
  unfold Mdns.byeSt
  refine Run.at (ls := [.bye, .ask]) r (Nat.le_refl _) (fun s e => ⟨upd_other _ _ _ _ e, fun v => ?_⟩) ?_ ?_
  · rw [mem]
    simp [e]
  · rw [view_eq (l := l.set .now (r :: l.q .now)) (p := some .now) (upd_same ..) fun v => ?_,
      view_eq (c := c) (l := l) hx (p := none) (fun v => by simp [hq v])]
    · exact .step (.bye hpr) (.one (.queue hpr (.inr rfl) (.inl rfl)))
    · rw [mem]
      simp [hq v, eq_comm]
  · intro a m
    rcases List.mem_cons.mp m with rfl | m
    · exact hb
    · rw [List.mem_singleton.mp m]
      exact hp

theorem Run.fresh {P : Nat → Lab → Prop} {c c' : Core} {l : Lists} (h : RInv c l) {x : Rec} {b : Bool}
    (hc : c'.recs = upd c.recs l.size (some x)) (ht : x.tries = 0) (hu : x.unique = if b then 1 else 0)
    (hp : P l.size .new) : Run P c l [] c' (l.fresh b) := by
  obtain ⟨ha, hq⟩ := h.absent
  have mem : ∀ s v, s ∈ (l.fresh b).q v ↔ (s = l.size ∧ b = true ∧ v = .probing) ∨ s ∈ l.q v := by
    intro s v
    unfold Lists.fresh
    simp only
    split
    · rename_i e
      simp [e]
    · rename_i e
      simp [e]
  refine Run.at (ls := [.new]) l.size (Nat.le_succ _) (fun s e => ⟨?_, fun v => ?_⟩) ?_ (by simpa)
  · rw [hc]
    exact upd_other _ _ _ _ e
  · rw [mem]
    simp [e]
  · rw [view_eq (c := c) (l := l) ha (p := none) (fun v => by simp [hq v])]
    rw [view_eq (c := c') (l := l.fresh b) (x := some x) (p := if b then some .probing else none)
      (by rw [hc]; exact upd_same ..) fun v => ?_]
    · cases b with
      | true => exact .one (.unique hu ht)
      | false => exact .one (.shared hu ht)
    · rw [mem]
      cases b <;> simp [hq v, eq_comm]

/-! ### Receiving -/

/-- What a received message may do to records. -/
def recvLab (_ : Nat) (a : Lab) : Prop := a = .ask ∨ a = .bye ∨ a = .free

theorem Run.dropProbing {P : Nat → Lab → Prop} {c c' : Core} {l : Lists} (h : RInv c l) {r : Nat} {x : Rec}
    (hx : c.recs r = some x) (hu : x.Probing) (hc : c'.recs = upd c.recs r none) (hf : P r .free) :
    Run P c l [] c' ((l.unprobe r).dead r) := by
  have hm := (h.probing r x hx).mpr hu
  have mem : ∀ s v, s ∈ ((l.unprobe r).dead r).q v ↔ s ≠ r ∧ s ∈ l.q v := fun s v => mem_unprobe h hm
  refine Run.at (ls := [.free]) r (Nat.le_refl _) (fun s e => ⟨?_, fun v => ?_⟩) ?_ (by simpa)
  · rw [hc]
    exact upd_other _ _ _ _ e
  · rw [mem]
    simp [e]
  · rw [view_eq (l := (l.unprobe r).dead r) (p := none) (by rw [hc]; exact upd_same .. : c'.recs r = none) fun v => ?_]
    · show RSteps ⟨c.recs r, l.place r⟩ _ _
      rw [hx]
      exact .one .drop
    · rw [mem]
      simp

theorem AnsL.run {env : Env} {src : Addr} {q : Question} {an : List Resource} {rs : List Nat} {s t : ISt}
    (n : AnsL env src q an rs s t) : Run recvLab s.c s.l [] t.c t.l := by
  induction n with
  | done h => exact .idle rfl
  | quiet h hx hu hl hf n ih => exact Run.pre hl.recs ih
  | conflict h hx hu hl ha n ih =>
    refine Run.trans (ts := []) (Run.dropProbing h hx ⟨hu.1, hu.2.1⟩ ?_ (.inr (.inr rfl))) ih
    exact congrArg (upd · _ none) hl.recs
  | @known r rs s t x evs h hx hu he hk n ih => exact Run.pre (c1 := s.c.heard evs) rfl ih
  | @send r rs s t x evs h hx hu he hk n ih =>
    exact Run.trans (ts := []) (Run.trans (ts := []) (c1 := s.c.heard evs) (.idle rfl)
      (Run.send (c := s.c.heard evs) (h.congr rfl rfl rfl) hx (.inl rfl))) ih

theorem SendL.run {rs : List Nat} {c c' : Core} {l l' : Lists} (n : SendL rs c l c' l') : Run recvLab c l [] c' l' := by
  induction n with
  | done h => exact .idle rfl
  | send h hx n ih => exact Run.trans (ts := []) (Run.send h hx (.inl rfl)) ih

theorem InQ.run {env : Env} {m : Msg} {src : Addr} {q : Question} {did did' : Bool} {c c' : Core} {l l' : Lists}
    (n : InQ env m src q did c l did' c' l') : Run recvLab c l [] c' l' := by
  cases n with
  | none h => exact .idle rfl
  | disco _ _ _ n => exact Run.pre (c1 := { c with disco := true }) rfl n.run
  | multi _ _ _ n => exact n.run
  | uni _ _ _ n =>
    have := n.run
    exact Run.trans (ts := []) this (.idle rfl)

theorem InQs.run {env : Env} {m : Msg} {src : Addr} {qs : List Question} {did : Bool} {c c' : Core} {l l' : Lists}
    (n : InQs env m src qs did c l c' l') : Run recvLab c l [] c' l' := by
  induction n with
  | nil => exact .idle rfl
  | cons _ h _ ih => exact Run.trans (ts := []) h.run ih

theorem cacheIn_recs {env : Env} {c c' : Core} {a : Resource} {src : Addr} (h : CInv c) (ha : a.WF)
    (e : c.cacheIn env a src = .ok c') : c'.rest = c.rest := by
  obtain ⟨c1, c2, ev1, ev2, e2, hc, _⟩ := h.cacheIn env ha src
  rw [e] at e2
  cases e2
  exact hc.rest

theorem InA.run {env : Env} {src : Addr} {a : Resource} {did did' : Bool} {c c' : Core} {l l' : Lists}
    (n : InA env src a did c l did' c' l') (ha : a.WF) (h : DInv c l) : Run recvLab c l [] c' l' := by
  cases n with
  | cache _ e =>
    have := cacheIn_recs (c := c.received a) (h.cinv.received a) ha e
    exact Run.pre (c1 := c.received a) rfl (.rest this)
  | own _ hl => exact .idle hl.recs
  | @conflict r x c1 _ _ hl hx hu e =>
    have i := done_inv h hl hx
    have := cacheIn_recs (c := (doneSt (c1.heard [.conflict r x.rr.name x.rr.type]) l r x).c.received a)
      (i.cinv.received a) ha e
    refine Run.trans (ts := []) (Run.trans (ts := []) (c1 := c1.heard [.conflict r x.rr.name x.rr.type]) (.idle hl.recs)
      (Run.done (c := c1.heard [.conflict r x.rr.name x.rr.type]) ((hl.rinv h.rinv).congr rfl rfl rfl) hx
        (.inl rfl) (.inr (.inl rfl)) (.inr (.inr rfl)))) ?_
    exact Run.pre (c1 := (doneSt (c1.heard [.conflict r x.rr.name x.rr.type]) l r x).c.received a) rfl (.rest this)

theorem InAs.run {env : Env} {src : Addr} {as : List Resource} {did : Bool} {c c' : Core} {l l' : Lists}
    (n : InAs env src as did c l c' l') (ha : ∀ a ∈ as, a.WF) : Run recvLab c l [] c' l' := by
  induction n with
  | nil => exact .idle rfl
  | cons i h _ ih => exact Run.trans (ts := []) (h.run (ha _ (by simp)) i) (ih fun a m => ha a (by simp [m]))

theorem InMsg.run {env : Env} {now : TV} {m : Msg} {src : Addr} {c c' : Core} {l l' : Lists} {ret : Nat}
    (n : InMsg env now m src c l ret c' l') (ha : ∀ a ∈ m.an, a.WF) : Run recvLab c l [] c' l' := by
  cases n with
  | shutdown => exact .idle rfl
  | own _ hl _ => exact .idle hl.recs
  | query _ _ hl _ n => exact Run.trans (ts := []) (.idle hl.recs) n.run
  | response _ _ hl _ n => exact Run.trans (ts := []) (.idle hl.recs) (n.run ha)

/-! ### Sending -/

/-- What making a packet may do to records; the answers of a multicast packet come from the
queues. -/
def sendLab (multi : Bool) (_ : Nat) (a : Lab) : Prop :=
  a = .verify ∨ ∃ s w, a = .put s w ∧ (s = .an → w.isSome = multi)

/-- Steps that add to a packet. -/
def ORun (s t : OSt) : Prop := ∃ ts, t.m.tags = s.m.tags ++ ts ∧ Run (sendLab true) s.c s.l ts t.c t.l

theorem ORun.refl (s : OSt) : ORun s s := ⟨[], by simp, .idle rfl⟩

theorem ORun.trans {s t u : OSt} (h : ORun s t) (h' : ORun t u) : ORun s u := by
  obtain ⟨a, e, n⟩ := h
  obtain ⟨b, e', n'⟩ := h'
  exact ⟨a ++ b, by rw [e', e, List.append_assoc], n.trans n'⟩

theorem ROut.run {w : W} (hw : w.answers) {s t : OSt} (n : ROut w s t) : ORun s t := by
  induction n with
  | empty h => exact .refl _
  | full h => exact .refl _
  | @skip s t r rest x h hq hx hf hd n ih =>
    refine ORun.trans ⟨[], by simp, ?_⟩ ih
    have hm : r ∈ s.l.q w := by rw [hq]; simp
    refine Run.at (ls := []) r (Nat.le_refl _) (fun s e => ⟨rfl, fun v => ?_⟩) ?_ (by simp)
    · simp only [mem_tl h hq]
      simp [e]
    · rw [view_mem h hx hm, view_eq (p := none) (l := s.l.tl w) hx fun v => by simp [mem_tl h hq]]
      exact .one (.skip hw)
  | @send s t r rest x h hq hx hf hd ht n ih =>
    refine ORun.trans (t := ⟨s.c.sentRec r x, s.l.tl w, s.m.put .an r x.rr (x.cls s.c.cls), answeredAdd s.seen r,
      s.ret + 1⟩) ⟨[(.an, r)], put_tags .., ?_⟩ ih
    have hm : r ∈ s.l.q w := by rw [hq]; simp
    refine Run.at (ls := [.put .an (some w)]) r (Nat.le_refl _) (fun s e => ⟨upd_other _ _ _ _ e, fun v => ?_⟩) ?_ ?_
    · simp only [mem_tl h hq]
      simp [e]
    · rw [view_mem h hx hm, view_eq (p := none) (l := s.l.tl w) (upd_same ..) fun v => by simp [mem_tl h hq]]
      exact .one (.sent hw ht ⟨rfl, rfl, rfl⟩)
    · intro a m
      exact .inr ⟨_, _, List.mem_singleton.mp m, by simp⟩
  | @bye s t r rest x h hq hx hf hd ht n ih =>
    refine ORun.trans (t := ⟨s.c.dropRec r x, (s.l.tl w).dead r, s.m.put .an r x.rr (x.cls s.c.cls), s.seen,
      s.ret + 1⟩) ⟨[(.an, r)], put_tags .., ?_⟩ ih
    have hm : r ∈ s.l.q w := by rw [hq]; simp
    have mem : ∀ u v, u ∈ ((s.l.tl w).dead r).q v ↔ u ≠ r ∧ u ∈ s.l.q v := fun u v => mem_tl h hq
    refine Run.at (ls := [.put .an (some w)]) r (Nat.le_refl _)
      (fun u e => ⟨upd_other _ _ _ _ e, fun v => ?_⟩) ?_ ?_
    · simp only [mem]
      simp [e]
    · rw [view_mem h hx hm, view_eq (p := none) (l := (s.l.tl w).dead r) (upd_same .. : (s.c.dropRec r x).recs r = none)
        fun v => by simp [mem]]
      refine .one (.sentBye ?_ ht)
      rcases hw with rfl | rfl <;> decide
    · intro a m
      exact .inr ⟨_, _, List.mem_singleton.mp m, by simp⟩

theorem PubL.run {pre suf : List Nat} {s t : OSt} (n : PubL pre suf s t) : ORun s t := by
  induction n with
  | done h => exact .refl _
  | full h => exact .refl _
  | @keep pre suf s t r x h hq hx hf ht h4 n ih =>
    refine ORun.trans (t := ⟨s.c.announced r x, s.l, s.m.put .an r x.rr (x.cls s.c.cls), answeredAdd s.seen r,
        s.ret + 1⟩) ⟨[(.an, r)], put_tags .., ?_⟩ ih
    have hm : r ∈ s.l.q .publish := by rw [hq]; simp
    refine Run.at (ls := [.put .an (some .publish)]) r (Nat.le_refl _)
      (fun u e => ⟨upd_other _ _ _ _ e, fun v => Iff.rfl⟩) ?_ ?_
    · have : view (s.c.announced r x) s.l r = ⟨some { x with tries := x.tries + 1, lastSent := s.c.now }, some .publish⟩ := by
        unfold view
        rw [(mem_place h _).mp hm]
        exact congrArg (View.mk · _) (upd_same ..)
      rw [view_mem h hx hm, this]
      exact .one (.announce ht h4 rfl rfl rfl)
    · intro a m
      exact .inr ⟨_, _, List.mem_singleton.mp m, by simp⟩
  | @last pre suf s t r x h hq hx hf ht h4 n ih =>
    refine ORun.trans (t := ⟨s.c.announced r x, s.l.unpublish r, s.m.put .an r x.rr (x.cls s.c.cls),
        answeredAdd s.seen r, s.ret + 1⟩) ⟨[(.an, r)], put_tags .., ?_⟩ ih
    have hm : r ∈ s.l.q .publish := by rw [hq]; simp
    refine Run.at (ls := [.put .an (some .publish)]) r (Nat.le_refl _)
      (fun u e => ⟨upd_other _ _ _ _ e, fun v => ?_⟩) ?_ ?_
    · simp only [mem_unpublish h hm]
      simp [e]
    · rw [view_mem h hx hm, view_eq (p := none) (l := s.l.unpublish r) (upd_same ..) fun v => by simp [mem_unpublish h hm]]
      exact .one (.announceLast ht h4 rfl rfl rfl)
    · intro a m
      exact .inr ⟨_, _, List.mem_singleton.mp m, by simp⟩
  | @bye pre suf s t r x h hq hx hf ht n ih =>
    refine ORun.trans (t := ⟨s.c.dropRec r x, (s.l.unpublish r).dead r, s.m.put .an r x.rr (x.cls s.c.cls), s.seen,
        s.ret + 1⟩) ⟨[(.an, r)], put_tags .., ?_⟩ ih
    have hm : r ∈ s.l.q .publish := by rw [hq]; simp
    have mem : ∀ u v, u ∈ ((s.l.unpublish r).dead r).q v ↔ u ≠ r ∧ u ∈ s.l.q v := fun u v => mem_unpublish h hm
    refine Run.at (ls := [.put .an (some .publish)]) r (Nat.le_refl _)
      (fun u e => ⟨upd_other _ _ _ _ e, fun v => ?_⟩) ?_ ?_
    · simp only [mem]
      simp [e]
    · rw [view_mem h hx hm, view_eq (p := none) (l := (s.l.unpublish r).dead r)
        (upd_same .. : (s.c.dropRec r x).recs r = none) fun v => by simp [mem]]
      exact .one (.sentBye (by decide) ht)
    · intro a m
      exact .inr ⟨_, _, List.mem_singleton.mp m, by simp⟩

theorem ProbeA.run {pre suf : List Nat} {s t : OSt} (n : ProbeA pre suf s t) : ORun s t := by
  induction n with
  | done h => exact .refl _
  | @verified pre suf s t r x h hq hx hu n ih =>
    refine ORun.trans ⟨[], by simp, ?_⟩ ih
    have hm : r ∈ s.l.q .probing := by rw [hq]; simp
    have mem : ∀ u v, u ∈ ((s.l.unprobe r).moveTo .publish r).q v ↔ (u = r ∧ v = .publish) ∨ (u ≠ r ∧ u ∈ s.l.q v) := by
      intro u v
      rw [mem_moveTo (h.unprobe hx hm), mem_unprobe h hm]
      simp
    refine Run.at (ls := [.verify]) r (Nat.le_refl _)
      (fun u e => ⟨upd_other _ _ _ _ e, fun v => ?_⟩) ?_ (by simp [sendLab])
    · simp only [mem]
      simp [e]
    · rw [view_mem h hx hm, view_eq (p := some .publish) (l := (s.l.unprobe r).moveTo .publish r) (upd_same ..)
        fun v => by rw [mem]; simp [eq_comm]]
      exact .one (.verify hu rfl rfl rfl)
  | @ask pre suf s t r x h hq hx hu n ih =>
    refine ORun.trans (t := { s with c := s.c.probed r x, m := s.m.add [.b (.qd x.rr.name x.rr.type s.c.cls)] })
      ⟨[], by simp [Out.add], ?_⟩ ih
    refine Run.at (ls := []) r (Nat.le_refl _)
      (fun u e => ⟨upd_other _ _ _ _ e, fun v => Iff.rfl⟩) ?_ (by simp)
    show RSteps ⟨s.c.recs r, s.l.place r⟩ _ ⟨upd s.c.recs r _ r, s.l.place r⟩
    rw [hx, upd_same]
    exact .one (.touch ⟨rfl, rfl, rfl⟩ ((h.probing r x hx).mp (by rw [hq]; simp)))

theorem ProbeB.run {pre suf : List Nat} {s t : OSt} (n : ProbeB pre suf s t) : ORun s t := by
  induction n with
  | done h => exact .refl _
  | @propose pre suf s t r x h hq hx hu n ih =>
    refine ORun.trans (t := { s with c := s.c.proposed r x, m := s.m.put .ns r x.rr s.c.cls, ret := s.ret + 1 })
      ⟨[(.ns, r)], put_tags .., ?_⟩ ih
    have hm : r ∈ s.l.q .probing := by rw [hq]; simp
    refine Run.at (ls := [.put .ns (some .probing)]) r (Nat.le_refl _)
      (fun u e => ⟨upd_other _ _ _ _ e, fun v => Iff.rfl⟩) ?_ ?_
    · have : view (s.c.proposed r x) s.l r = ⟨some { x with unique := x.unique + 1, lastSent := s.c.now }, some .probing⟩ := by
        unfold view
        rw [(mem_place h _).mp hm]
        exact congrArg (View.mk · _) (upd_same ..)
      rw [view_mem h hx hm, this]
      exact .one (.propose hu rfl rfl rfl)
    · intro a m
      exact .inr ⟨_, _, List.mem_singleton.mp m, by simp⟩

theorem PubOpt.run {s t : OSt} (n : PubOpt s t) : ORun s t := by
  cases n with
  | no => exact .refl _
  | @yes t _ _ _ n =>
    refine ORun.trans n.run ⟨[], by simp, .idle ?_⟩
    show (if _ then _ else _ : Core).recs = _
    split <;> rfl

theorem PauseOpt.run {s t : OSt} (n : PauseOpt s t) : ORun s t := by
  cases n with
  | no => exact .refl _
  | yes _ _ n => exact n.run (.inr rfl)

theorem ProbeOpt.run {s t : OSt} (n : ProbeOpt s t) : ORun s t := by
  cases n with
  | no => exact .refl _
  | @yes _ t _ _ n n' =>
    refine (n.run.trans n'.run).trans ⟨[], by simp, .idle ?_⟩
    show (if _ then _ else _ : Core).recs = _
    split <;> rfl

theorem AddL.run {multi : Bool} {c : Core} {J : Nat → Prop} {m m' : Out} {s s' : List Nat} (n : AddL c J m s m' s') (l : Lists) :
    ∃ ts, m'.tags = m.tags ++ ts ∧ Run (sendLab multi) c l ts c l := by
  induction n with
  | nil => exact ⟨[], by simp, .idle rfl⟩
  | add n hn hx hf j ih =>
    rename_i r x
    obtain ⟨ts, e, n⟩ := ih
    refine ⟨ts ++ [(.ar, r)], by rw [put_tags, e, List.append_assoc], n.trans ?_⟩
    refine Run.at (ls := [.put .ar none]) r (Nat.le_refl _) (fun u e => ⟨rfl, fun v => Iff.rfl⟩) ?_ ?_
    · show RSteps ⟨c.recs r, l.place r⟩ _ _
      rw [hx]
      refine .one ?_
      have : view c l r = ⟨some x, l.place r⟩ := by unfold view; rw [hx]
      rw [this]
      exact .extra
    · intro a m
      exact .inr ⟨_, _, List.mem_singleton.mp m, by simp⟩

theorem knownLoop_tags (c : Core) (x : Query) (ch : List Cached) (m : Out) : (knownLoop c x ch m).tags = m.tags := by
  induction ch generalizing m with
  | nil => rfl
  | cons e es ih =>
    unfold knownLoop
    split
    · split
      · rw [ih]
        rfl
      · rfl
    · exact ih m

theorem Upd.tags {env : Env} {suf : List Nat} {s t : QSt} (n : Upd env suf s t) : t.m.tags = s.m.tags := by
  induction n with
  | done h => rfl
  | idle _ _ _ _ ih => exact ih
  | again _ _ _ _ _ _ _ _ _ ih => exact ih
  | ask _ _ _ _ _ ih => rw [ih]; exact knownLoop_tags ..

theorem QuestOpt.tags {env : Env} {m m' : Out} {c c' : Core} {ret : Nat} (n : QuestOpt env m c ret m' c') :
    m'.tags = m.tags := by
  cases n with
  | no => rfl
  | yes _ _ n => exact n.tags

theorem GcOpt.recs {env : Env} {c c' : Core} (n : GcOpt env c c') : c'.recs = c.recs := by
  cases n with
  | no => rfl
  | yes hc hn e =>
    obtain ⟨c1, evs, e1, s1, _⟩ := hc.gc env
    rw [e1] at e
    cases e
    exact (congrArg Core.recs s1.rest : c1.rest.recs = c.rest.recs)

theorem OutRest.run {env : Env} {s : OSt} {ret : Nat} {m : Out} {c : Core} {l : Lists} (n : OutRest env s ret m c l) :
    ∃ ts, m.tags = s.m.tags ++ ts ∧ Run (sendLab true) s.c s.l ts c l := by
  cases n with
  | @answers s1 _ _ np na _ =>
    obtain ⟨ts, e, n⟩ := np.run
    obtain ⟨ts', e', n'⟩ := na.run s1.l
    exact ⟨ts ++ ts', by rw [e', e, List.append_assoc], n.trans n'⟩
  | @probes s1 s2 m _ np na _ nb _ =>
    obtain ⟨ts, e, n⟩ := np.run
    obtain ⟨ts', e', n'⟩ := na.run s1.l
    obtain ⟨ts'', e'', n''⟩ := nb.run
    exact ⟨ts ++ ts' ++ ts'', by rw [e'']; show m.tags ++ _ = _; rw [e', e]; simp [List.append_assoc],
      (n.trans n').trans n''⟩
  | @questions s1 s2 m _ _ _ c3 c4 np na _ nb _ nq ng =>
    obtain ⟨ts, e, n⟩ := np.run
    obtain ⟨ts', e', n'⟩ := na.run s1.l
    obtain ⟨ts'', e'', n''⟩ := nb.run
    refine ⟨ts ++ ts' ++ ts'', by rw [nq.tags, e'']; show m.tags ++ _ = _; rw [e', e]; simp [List.append_assoc], ?_⟩
    have := ((n.trans n').trans n'').trans (Run.rest (P := sendLab true) (l := s2.l) nq.rest)
    have := this.trans (Run.idle (P := sendLab true) (l := s2.l) ng.recs)
    simpa using this

theorem OutMsg.run {env : Env} {c : Core} {l : Lists} {ret : Nat} {m : Out} {to : Addr} {c' : Core} {l' : Lists}
    (n : OutMsg env c l ret m to c' l') (hu : ∀ u ∈ c.uanswers, u.to.port ≠ 5353) :
    Run (sendLab (to.port == 5353)) c l m.tags c' l' := by
  cases n with
  | @unicast u us x _ _ hu' hx na =>
    have hm : (u.to.port == 5353) = false := by simpa using hu u (by rw [hu']; simp)
    rw [hm]
    obtain ⟨ts, e, n⟩ := na.run l
    rw [e]
    refine Run.trans ?_ n
    refine Run.at (ls := [.put .an none]) u.r (Nat.le_refl _)
      (fun u e => ⟨upd_other _ _ _ _ e, fun v => Iff.rfl⟩) ?_ ?_
    · show RSteps ⟨c.recs u.r, l.place u.r⟩ _ ⟨upd c.recs u.r _ u.r, l.place u.r⟩
      rw [hx, upd_same]
      exact .one (.unicast ⟨rfl, rfl, rfl⟩)
    · intro a m
      exact .inr ⟨_, _, List.mem_singleton.mp m, by simp⟩
  | @shutdown s1 s2 _ n1 n2 _ =>
    obtain ⟨ts, e, n⟩ := (n1.run (.inl rfl)).trans n2.run
    have e : s2.m.tags = ts := e
    have hm : ((mcast c.family).port == 5353) = true := by cases c.family <;> rfl
    rw [hm]
    rw [e]
    exact n
  | @normal s1 s2 _ _ _ _ _ n1 n2 _ n3 =>
    obtain ⟨ts, e, n⟩ := (n1.run (.inl rfl)).trans n2.run
    obtain ⟨ts', e', n'⟩ := n3.run
    have e : s2.m.tags = ts := e
    have hm : ((mcast c.family).port == 5353) = true := by cases c.family <;> rfl
    rw [hm]
    rw [e', e]
    exact n.trans n'

/-! ### The other calls -/

theorem SetL.run {P : Nat → Lab → Prop} {type : Nat} {a : Ip} {rs : List Nat} {c c' : Core} {l l' : Lists}
    (n : SetL type a rs c l c' l') (hp : ∀ r, P r .set) : Run P c l [] c' l' := by
  induction n with
  | nil h => exact .idle rfl
  | skip _ _ _ _ ih => exact ih
  | set h hx ht n ih =>
    refine Run.trans (ts := []) (Run.publish h.rinv hx (Rec.withAddr_role _ _) ?_ (hp _)) ih
    cases a <;> rfl

theorem ByeL.run {P : Nat → Lab → Prop} {p : Rec → Prop} {rs : List Nat} {c c' : Core} {l l' : Lists}
    (n : ByeL p rs c l c' l') (hp : ∀ r, P r .ask ∧ P r .bye) : Run P c l [] c' l' := by
  induction n with
  | nil h => exact .idle rfl
  | skip _ _ _ _ ih => exact ih
  | bye h hx ht hq n ih => exact Run.trans (ts := []) (Run.byeSt h.rinv hx hq (hp _).1 (hp _).2) ih

theorem AddA.run {P : Nat → Lab → Prop} {host : Bytes} {type ttl : Nat} {wants : List Ip} {c c' : Core} {l l' : Lists}
    (n : AddA host type ttl wants c l c' l') (hp : ∀ r, l.size ≤ r → P r .new) (hs : ∀ r, P r .set) :
    Run P c l [] c' l' := by
  induction n with
  | nil h => exact .idle rfl
  | there h _ _ ih => exact ih hp
  | @new want wants c c' l l' h hr n ih =>
    have i := (shared_inv h host type ttl).rinv
    have r1 : Run P c l [] (addrSt c l host type ttl want).c (addrSt c l host type ttl want).q := by
      refine Run.trans (ts := []) (c1 := c.publishRec l.size (sharedRec host type ttl)) (l1 := l.fresh false)
        (Run.fresh h.rinv rfl rfl rfl (hp _ (Nat.le_refl _))) ?_
      refine Run.publish i (upd_same ..) (Rec.withAddr_role _ want) ?_ (hs _)
      cases want <;> rfl
    exact Run.trans (ts := []) r1 (ih fun r hr => hp r (Nat.le_trans r1.size hr))

theorem DropA.run {P : Nat → Lab → Prop} {host : Bytes} {type : Nat} {want : List Ip} {rs : List Nat} {c c' : Core}
    {l l' : Lists} (n : DropA host type want rs c l c' l') (hp : ∀ r, P r .ask ∧ P r .bye ∧ P r .free) :
    Run P c l [] c' l' := by
  induction n with
  | nil h => exact .idle rfl
  | keep _ _ _ _ ih => exact ih
  | drop h hx hk n ih => exact Run.trans (ts := []) (Run.done h.rinv hx (hp _).1 (hp _).2.1 (hp _).2.2) ih

/-- What setting the addresses of hosts may do to records. -/
def addrLab (n : Nat) (r : Nat) (a : Lab) : Prop := (a = .new ∧ n ≤ r) ∨ a = .set ∨ a = .ask ∨ a = .bye ∨ a = .free

theorem UpdA.run {host : Bytes} {type : Nat} {want : List Ip} {c c' : Core} {l l' : Lists}
    (n : UpdA host type want c l c' l') : Run (addrLab l.size) c l [] c' l' := by
  cases n with
  | mk h ht a d =>
    exact Run.trans (ts := []) (a.run (fun r hr => .inl ⟨rfl, hr⟩) fun r => by simp [addrLab])
      (d.run fun r => by simp [addrLab])

theorem IfA.run {v4 : List Ip4} {v6 : List Ip6} {hosts : List Bytes} {c c' : Core} {l l' : Lists}
    (n : IfA v4 v6 hosts c l c' l') : Run (addrLab l.size) c l [] c' l' := by
  induction n with
  | nil h => exact .idle rfl
  | cons a b n ih =>
    have up : ∀ {n n' : Nat}, n ≤ n' → ∀ r x, addrLab n' r x → addrLab n r x := by
      intro n n' hn r x h
      rcases h with ⟨rfl, h⟩ | h
      · exact .inl ⟨rfl, Nat.le_trans hn h⟩
      · exact .inr h
    exact Run.trans (ts := []) a.run (Run.trans (ts := []) (b.run.mono (up a.run.size))
      (ih.mono (up (Nat.le_trans a.run.size b.run.size))))

/-- What a call with the given result may do to a record; `n` is the number of records made so
far. -/
def Op.may (n : Nat) (o : Op) (out : OpOut) (r : Nat) (a : Lab) : Prop :=
  match o with
  | .recv _ _ _ => recvLab r a
  | .send _ => sendLab out.multi r a
  | .sleep _ => a = .ask
  | .shared _ _ _ => a = .new ∧ r = n
  | .unique _ _ _ _ => a = .new ∧ r = n
  | .done s => r = s ∧ recvLab r a
  | .setRaw s _ => r = s ∧ a = .set
  | .setHost s _ => r = s ∧ a = .set
  | .setIp s _ => r = s ∧ a = .set
  | .setIpv6 s _ => r = s ∧ a = .set
  | .setSrv s _ _ _ _ => r = s ∧ a = .set
  | .setAddress _ => a = .set ∨ a = .ask ∨ a = .bye
  | .setIpv6Address _ => a = .set ∨ a = .ask ∨ a = .bye
  | .setAddresses _ _ => addrLab n r a
  | .setIpv6Addresses _ _ => addrLab n r a
  | .setInterface _ _ => addrLab n r a
  | .shutdown => a = .ask ∨ a = .bye
  | .clear => a = .free
  | _ => False

theorem SleepR.run {now t : TV} {c c' : Core} {l l' : Lists} (n : SleepR now c l t c' l') (h : RInv c l) :
    Run (fun _ a => a = .ask) c l [] c' l' := by
  cases n with
  | idle hb h1 h2 h3 _ _ i o hp _ _ _ hz =>
    refine Run.trans (ts := []) (c1 := c) (l1 := l') ?_ (.idle rfl)
    refine ⟨Nat.le_of_eq hz.symm, fun r => ?_⟩
    have hq : ∀ w, r ∉ l.q w := by
      intro w
      cases w <;> simp [hb.2, h1, h2, h3]
    by_cases hs : r ∈ l'.q .pause
    · obtain ⟨i', hi', hh, x, hx, hl⟩ := (hp r).mp hs
      refine ⟨[.ask], ?_, rfl, by simp⟩
      rw [view_eq (c := c) (l := l) (p := none) hx (fun w => by simp [hq w]),
        view_eq (c := c) (l := l') (p := some .pause) hx fun w => ?_]
      · refine .one (.queue (fun hu => hq _ ((h.probing r x hx).mpr hu)) (.inr rfl) (.inr rfl))
      · constructor
        · intro m
          rw [i.disj _ _ _ m hs]
        · intro e
          cases e
          exact hs
    · refine ⟨[], ?_, rfl, by simp⟩
      rw [view_congr (c := c) (l := l) (l' := l') rfl fun w => ?_]
      · exact .refl _
      · simp only [hq, iff_false]
        intro m
        by_cases e : w = .pause
        · exact hs (e ▸ m)
        · rw [o w e] at m
          cases m
  | _ => exact .idle rfl

theorem Shut.run {c c' : Core} {l l' : Lists} (n : Shut c l c' l') (h : RInv c l) :
    Run (fun _ a => a = .ask ∨ a = .bye) c l [] c' l' := by
  cases n with
  | mk n =>
    refine Run.trans (ts := []) (c1 := c) (l1 := l.set .now []) ?_ (Run.trans (ts := []) (n.run (by simp)) (.idle rfl))
    refine ⟨Nat.le_refl _, fun r => ⟨[], ?_, rfl, by simp⟩⟩
    have mem : ∀ w, r ∈ (l.set .now []).q w ↔ w ≠ .now ∧ r ∈ l.q w := by
      intro w
      unfold Lists.set
      simp only
      split
      · rename_i e
        simp [e]
      · rename_i e
        simp [e]
    by_cases hm : r ∈ l.q .now
    · obtain ⟨x, hx⟩ := h.qrec hm
      rw [view_mem h hx hm, view_eq (l := l.set .now []) (p := none) hx fun w => ?_]
      · exact .one (.skip (.inl rfl))
      · rw [mem]
        simp only [reduceCtorEq, iff_false]
        exact fun m => m.1 (h.disj _ _ _ m.2 hm)
    · rw [view_congr (c := c) (l := l) (l' := l.set .now []) rfl fun w => ?_]
      · exact .refl _
      · rw [mem]
        exact ⟨fun m => m.2, fun m => ⟨fun e => hm (e ▸ m), m⟩⟩

theorem Addr4.run {a : Ip4} {c c' : Core} {l l' : Lists} (n : Addr4 a c l c' l') :
    Run (fun _ a => a = .set ∨ a = .ask ∨ a = .bye) c l [] c' l' := by
  cases n with
  | same => exact .idle rfl
  | set _ _ n => exact Run.trans (ts := []) (n.run (by simp)) (.idle rfl)
  | bye _ _ n => exact Run.trans (ts := []) (n.run (by simp)) (.idle rfl)

theorem Addr6.run {a : Ip6} {c c' : Core} {l l' : Lists} (n : Addr6 a c l c' l') :
    Run (fun _ a => a = .set ∨ a = .ask ∨ a = .bye) c l [] c' l' := by
  cases n with
  | same => exact .idle rfl
  | set _ _ n => exact Run.trans (ts := []) (n.run (by simp)) (.idle rfl)
  | bye _ _ n => exact Run.trans (ts := []) (n.run (by simp)) (.idle rfl)

/-- Every call is, for every record, a chain of permitted steps in which the record is put in
the packet as often as the packet says. -/
theorem Did.run {env : Env} {o : Op} {c c' : Core} {l l' : Lists} {a : OpOut} (n : Did env o c l a c' l')
    (h : DInv c l) (hu : ∀ u ∈ c.uanswers, u.to.port ≠ 5353) : Run (o.may l.size a) c l a.tags c' l' := by
  cases n with
  | setFamily => exact .idle rfl
  | setAddress n => exact n.run
  | setIpv6Address n => exact n.run
  | shutdown _ n => exact n.run h.rinv
  | receiveCallback => exact .idle rfl
  | recv wf n => exact n.run wf
  | @send now _ _ _ _ _ _ _ n => exact Run.pre (c1 := { c with now := now }) rfl (n.run hu)
  | sleep n => exact n.run h.rinv
  | query e n => exact .rest n.rest
  | shared => exact Run.fresh h.rinv rfl rfl rfl ⟨rfl, rfl⟩
  | unique => exact Run.fresh h.rinv rfl rfl rfl ⟨rfl, rfl⟩
  | done hx => exact Run.done h.rinv hx ⟨rfl, .inl rfl⟩ ⟨rfl, .inr (.inl rfl)⟩ ⟨rfl, .inr (.inr rfl)⟩
  | setRaw hx => exact Run.publish h.rinv hx ⟨rfl, rfl, rfl, rfl, rfl, rfl⟩ rfl ⟨rfl, rfl⟩
  | setHost hx => exact Run.publish h.rinv hx ⟨rfl, rfl, rfl, rfl, rfl, rfl⟩ rfl ⟨rfl, rfl⟩
  | setIp hx => exact Run.publish h.rinv hx ⟨rfl, rfl, rfl, rfl, rfl, rfl⟩ rfl ⟨rfl, rfl⟩
  | setIpv6 hx => exact Run.publish h.rinv hx ⟨rfl, rfl, rfl, rfl, rfl, rfl⟩ rfl ⟨rfl, rfl⟩
  | setSrv hx => exact Run.publish h.rinv hx ⟨rfl, rfl, rfl, rfl, rfl, rfl⟩ rfl ⟨rfl, rfl⟩
  | setAddresses n => exact n.run
  | setIpv6Addresses n => exact n.run
  | setInterface n => exact n.run
  | clear n e i z tm =>
    refine ⟨Nat.le_of_eq z.symm, fun r => ?_⟩
    have hq : ∀ w, r ∉ l'.q w := by simp [n.queues]
    have hv : view c' l' r = ⟨none, none⟩ := view_eq (n.recs r) fun w => by simp [hq w]
    rw [hv]
    cases hx : c.recs r with
    | none =>
      refine ⟨[], ?_, rfl, by simp⟩
      rw [view_eq hx fun w => ?_]
      · exact .refl _
      · simp only [reduceCtorEq, iff_false]
        intro m
        obtain ⟨x, hx'⟩ := h.rinv.qrec m
        rw [hx] at hx'
        cases hx'
    | some x =>
      refine ⟨[.free], ?_, rfl, by simp [Op.may]⟩
      show RSteps ⟨c.recs r, _⟩ _ _
      rw [hx]
      exact .one .drop
  | stepEnd => exact .idle rfl

end Mdns
