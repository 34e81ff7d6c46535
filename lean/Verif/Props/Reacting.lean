import Verif.Lemmas.Reacting
import Verif.Props.Rivals

/-!
# C106: conflict callbacks that call the library

A program is told of a conflict by a callback, and the natural thing to do there is to publish the record under another name.
The callback runs in the middle of `mdnsd_in`, which goes on with the records it has at hand, and then withdraws the record.
-/

namespace Mdns

open M

/-- The states that calls lead to where the conflict callbacks are those of `p`. -/
inductive ReachR (env : Env) (p : Reaction) : D Ptrs → Prop
  | new (cls frame : Nat) (now : TV) : ReachR env p (newD cls frame now)
  | step {d d' : D Ptrs} {o : Op} {a : OpOut} (h : ReachR env p d) (hs : OpSafe env d.c d.q.walk o) (e : stepR env p o d = .ok (a, d')) :
      ReachR env p d'

theorem stepR_ok {env : Env} {p : Reaction} (hp : p.Considerate) {c : Core} {l : Lists} (h : DInv c l) (o : Op) (hs : OpSafe env c l.q o) :
    ∃ a c' l', stepR env p o ⟨c, l⟩ = .ok (a, ⟨c', l'⟩) ∧ DInv c' l' ∧ (o.isRecv = true → Trail env p c l c' l') := by
  cases o with
  | recv now m src =>
    obtain ⟨ret, c', l', e, n⟩ := inMsgR_ok (env := env) hp (now := now) (src := src) h hs
    exact ⟨_, c', l', (M.bind_ok e).trans rfl, n.inv, fun _ => n⟩
  | _ =>
    rw [stepR_other env p rfl]
    obtain ⟨a, c', l', e, n⟩ := step_ok (env := env) h _ hs
    exact ⟨a, c', l', e, n.inv h, fun hc => by cases hc⟩

theorem Rep.stepR {env : Env} {p : Reaction} (hp : p.Considerate) {d : D Ptrs} {l : Lists} (h : Rep d l) (o : Op)
    (hs : OpSafe env d.c d.q.walk o) :
    ∃ a d' l', Mdns.stepR env p o d = .ok (a, d') ∧ Rep d' l' ∧ (o.isRecv = true → Trail env p d.c l d'.c l') := by
  rw [h.rq.walk] at hs
  obtain ⟨a, c', l', e, n, hl⟩ := stepR_ok hp h.inv o hs
  obtain ⟨p', e', hr⟩ := Sim.stepR env p o d.q l d.c h.rq a c' l' e
  exact ⟨a, ⟨c', p'⟩, l', e', ⟨hr, n⟩, hl⟩

theorem ReachR.rep {env : Env} {p : Reaction} (hp : p.Considerate) {d : D Ptrs} (h : ReachR env p d) : ∃ l, Rep d l := by
  induction h with
  | new cls frame now => exact ⟨_, newD_rep cls frame now⟩
  | step _ hs e ih =>
    obtain ⟨l, hr⟩ := ih
    obtain ⟨a', d'', l', e', hr', _⟩ := hr.stepR hp _ hs
    rw [e] at e'
    cases e'
    exact ⟨l', hr'⟩

/-- C106: whatever records conflict callbacks publish, set or withdraw, and whatever queries they start or end, every call is defined and
terminates; if they withdraw no record of the name they are told of that is still being probed, and call no function that goes over all records or
receives and makes packets. -/
theorem C106_safe_partial {env : Env} {p : Reaction} (hp : p.Considerate) {d : D Ptrs} (h : ReachR env p d) :
    (∀ now m src, (∀ a ∈ m.an, a.WF) → ∃ a d', stepR env p (.recv now m src) d = .ok (a, d')) ∧
      ∀ o, OpSafe env d.c d.q.walk o → ∃ a d', stepR env p o d = .ok (a, d') := by
  obtain ⟨l, hr⟩ := h.rep hp
  have key : ∀ o, OpSafe env d.c d.q.walk o → ∃ a d', stepR env p o d = .ok (a, d') := by
    intro o hs
    obtain ⟨a, d', _, e, _⟩ := hr.stepR hp o hs
    exact ⟨a, d', e⟩
  exact ⟨fun now m src hw => key (.recv now m src) hw, key⟩

/-! ### What becomes of the records -/

/-- The record is gone, or its lifetime is zero. -/
def GivenUp (c : Core) (r : Nat) : Prop := ∀ x, c.recs r = some x → x.rr.ttl = 0

/-- The record is of that name and type as long as it exists. -/
structure Ident (r : Nat) (name : Bytes) (type : Nat) (c : Core) (l : Lists) : Prop where
  lt : r < l.size
  rr : ∀ x, c.recs r = some x → x.rr.name = name ∧ x.rr.type = type

theorem Deed.named {c c' : Core} {l l' : Lists} {o : Op} (h : Deed c l c' l' o) {r : Nat} {name : Bytes} {type : Nat}
    (n : Ident r name type c l) : Ident r name type c' l' := by
  cases h with
  | same h1 _ h3 => exact ⟨by rw [h3]; exact n.lt, by rw [h1]; exact n.rr⟩
  | @set _ s y y' hx h1 _ h3 hn ht _ _ _ =>
    refine ⟨by rw [h3]; exact n.lt, fun x hy => ?_⟩
    by_cases e : r = s
    · subst e
      rw [h1, upd_same] at hy
      cases hy
      obtain ⟨k1, k2⟩ := n.rr _ hx
      exact ⟨hn.trans k1, ht.trans k2⟩
    · rw [h1, upd_other _ _ _ _ e] at hy
      exact n.rr x hy
  | fresh h1 _ h3 =>
    have lt := n.lt
    refine ⟨by omega, fun x hy => ?_⟩
    rw [h1, upd_other _ _ _ _ (by omega)] at hy
    exact n.rr x hy
  | @bye s y hx _ h1 _ h3 =>
    refine ⟨by rw [h3]; exact n.lt, fun x hy => ?_⟩
    by_cases e : r = s
    · subst e
      rw [h1, upd_same] at hy
      cases hy
      exact n.rr y hx
    · rw [h1, upd_other _ _ _ _ e] at hy
      exact n.rr x hy
  | @drop s y hx _ h1 _ h3 =>
    refine ⟨by rw [h3]; exact n.lt, fun x hy => ?_⟩
    by_cases e : r = s
    · subst e
      rw [h1, upd_same] at hy
      cases hy
    · rw [h1, upd_other _ _ _ _ e] at hy
      exact n.rr x hy

theorem Deed.givenUp {c c' : Core} {l l' : Lists} {o : Op} (h : Deed c l c' l' o) {r : Nat} (hr : r < l.size) (n : GivenUp c r) :
    GivenUp c' r ∧ r < l'.size := by
  cases h with
  | same h1 _ h3 => exact ⟨by unfold GivenUp; rw [h1]; exact n, by omega⟩
  | @set _ s y y' hx h1 _ h3 _ _ hl _ _ =>
    refine ⟨fun x hy => ?_, by omega⟩
    by_cases e : r = s
    · subst e
      rw [h1, upd_same] at hy
      cases hy
      exact hl.trans (n _ hx)
    · rw [h1, upd_other _ _ _ _ e] at hy
      exact n x hy
  | fresh h1 _ h3 =>
    refine ⟨fun x hy => ?_, by omega⟩
    rw [h1, upd_other _ _ _ _ (by omega)] at hy
    exact n x hy
  | @bye s y hx _ h1 _ h3 =>
    refine ⟨fun x hy => ?_, by omega⟩
    by_cases e : r = s
    · subst e
      rw [h1, upd_same] at hy
      cases hy
      rfl
    · rw [h1, upd_other _ _ _ _ e] at hy
      exact n x hy
  | @drop s y hx _ h1 _ h3 =>
    refine ⟨fun x hy => ?_, by omega⟩
    by_cases e : r = s
    · subst e
      rw [h1, upd_same] at hy
      cases hy
    · rw [h1, upd_other _ _ _ _ e] at hy
      exact n x hy

theorem Reacts.named {env : Env} {nm : Bytes} {fs : List (Core → Op)} {c c' : Core} {l l' : Lists} (n : Reacts env nm fs c l c' l') {r : Nat}
    {name : Bytes} {type : Nat} (k : Ident r name type c l) : Ident r name type c' l' := by
  induction n with
  | nil => exact k
  | cons i hc n _ ih => exact ih ((n.deed i hc).1.named k)

theorem Reacts.givenUp {env : Env} {nm : Bytes} {fs : List (Core → Op)} {c c' : Core} {l l' : Lists} (n : Reacts env nm fs c l c' l') {r : Nat}
    (hr : r < l.size) (k : GivenUp c r) : GivenUp c' r ∧ r < l'.size := by
  induction n with
  | nil => exact ⟨k, hr⟩
  | cons i hc n _ ih =>
    obtain ⟨k1, k2⟩ := (n.deed i hc).1.givenUp hr k
    exact ih k2 k1

theorem Trail.givenUp {env : Env} {p : Reaction} {c c' : Core} {l l' : Lists} (n : Trail env p c l c' l') {r : Nat} (hr : r < l.size)
    (k : GivenUp c r) : GivenUp c' r := by
  induction n with
  | nil _ => exact k
  | quiet _ h1 _ h3 _ _ ih => exact ih (by omega) (by unfold GivenUp; rw [h1]; exact k)
  | conflict _ _ _ n1 _ hx1 _ _ ih =>
    obtain ⟨k1, k2⟩ := n1.givenUp hr k
    obtain ⟨k3, k4⟩ := (doneSt_deed hx1).givenUp k2 k1
    exact ih k4 k3

theorem Trail.log {env : Env} {p : Reaction} {c c' : Core} {l l' : Lists} (n : Trail env p c l c' l') : ∃ evs, c'.log = c.log ++ evs := by
  induction n with
  | nil _ => exact ⟨[], by simp⟩
  | quiet _ _ _ _ h4 _ ih =>
    obtain ⟨e1, h1, _⟩ := h4
    obtain ⟨e2, h2⟩ := ih
    exact ⟨e1 ++ e2, by rw [h2, h1]; simp⟩
  | @conflict _ _ _ _ _ _ r x _ _ _ _ n1 _ _ _ _ ih =>
    obtain ⟨e1, h1, _⟩ := n1.calm
    obtain ⟨e2, h2⟩ := ih
    exact ⟨[.conflict r x.rr.name x.rr.type] ++ e1 ++ e2, by rw [h2, doneSt_log, h1]; simp [Core.heard]⟩

/-- The events of a packet that begins with a step without conflicts. -/
theorem calm_split {a b c evs : List Event} (h : CalmLog a b) (hc : c = a ++ evs) (hp : ∃ e2, c = b ++ e2) :
    ∃ e2, c = b ++ e2 ∧ ∀ r n t, Event.conflict r n t ∈ evs ↔ Event.conflict r n t ∈ e2 := by
  obtain ⟨e1, rfl, h1⟩ := h
  obtain ⟨e2, rfl⟩ := hp
  have : evs = e1 ++ e2 := by
    rw [List.append_assoc] at hc
    exact (List.append_cancel_left hc).symm
  subst this
  refine ⟨e2, rfl, fun r n t => ?_⟩
  rw [List.mem_append]
  exact ⟨fun h => h.elim (fun m => absurd rfl (h1 _ m r n t)) id, .inr⟩

/-- The events of a packet that begins with a conflict. -/
theorem conflict_split {env : Env} {nm : Bytes} {fs : List (Core → Op)} {c c1 c' : Core} {l l1 : Lists} {r : Nat} {x x1 : Rec} {evs : List Event}
    (n1 : Reacts env nm fs (c.heard [.conflict r x.rr.name x.rr.type]) l c1 l1) (hc : c'.log = c.log ++ evs)
    (hp : ∃ e2, c'.log = (doneSt c1 l1 r x1).c.log ++ e2) :
    ∃ e2, c'.log = (doneSt c1 l1 r x1).c.log ++ e2 ∧
      ∀ s n t, Event.conflict s n t ∈ evs ↔ (s = r ∧ n = x.rr.name ∧ t = x.rr.type) ∨ Event.conflict s n t ∈ e2 := by
  rw [doneSt_log] at hp ⊢
  obtain ⟨e0, h0⟩ : ∃ e0, c'.log = (c.heard [.conflict r x.rr.name x.rr.type]).log ++ e0 := by
    obtain ⟨e1, h1, _⟩ := n1.calm
    obtain ⟨e2, h2⟩ := hp
    exact ⟨e1 ++ e2, by rw [h2, h1]; simp⟩
  obtain ⟨e2, h2, h3⟩ := calm_split n1.calm h0 hp
  have : evs = .conflict r x.rr.name x.rr.type :: e0 := by
    rw [hc] at h0
    simp only [Core.heard, List.append_assoc] at h0
    exact List.append_cancel_left h0
  subst this
  refine ⟨e2, h2, fun s n t => ?_⟩
  rw [List.mem_cons, h3, Event.conflict.injEq]

theorem Trail.reported {env : Env} {p : Reaction} {c c' : Core} {l l' : Lists} (n : Trail env p c l c' l') {evs : List Event}
    (he : c'.log = c.log ++ evs) {r : Nat} {nm : Bytes} {t : Nat} (hm : Event.conflict r nm t ∈ evs) : GivenUp c' r := by
  induction n generalizing evs with
  | @nil c _ _ =>
    have : evs = [] := by
      have := congrArg List.length he
      simpa using this
    subst this
    cases hm
  | quiet _ _ _ _ h4 n ih =>
    obtain ⟨e2, h2, h3⟩ := calm_split h4 he n.log
    exact ih h2 ((h3 _ _ _).mp hm)
  | @conflict c0 c1 c2 l0 l1 l2 s x x1 i hx _ n1 i1 hx1 _ n ih =>
    obtain ⟨e2, h2, h3⟩ := conflict_split n1 he n.log
    rcases (h3 _ _ _).mp hm with ⟨rfl, _, _⟩ | hm
    · have d := doneSt_deed (l := l1) hx1
      have lt := i1.rinv.bound r (by rw [hx1]; rfl)
      have k : GivenUp (doneSt c1 l1 r x1).c r ∧ r < (doneSt c1 l1 r x1).q.size := by
        obtain ⟨k1, _⟩ := doneSt_recs i1.rinv hx1
        refine ⟨fun y hy => ?_, ?_⟩
        · by_cases hpr : x1.Probing
          · rw [k1.1 hpr] at hy
            cases hy
          · rw [k1.2 hpr] at hy
            cases hy
            rfl
        · exact (d.named (r := r) (name := x1.rr.name) (type := x1.rr.type) ⟨lt, fun y hy => by rw [hx1] at hy; cases hy; exact ⟨rfl, rfl⟩⟩).lt
      exact n.givenUp k.2 k.1
    · exact ih h2 hm

theorem Trail.told {env : Env} {p : Reaction} {c c' : Core} {l l' : Lists} (n : Trail env p c l c' l') {evs : List Event}
    (he : c'.log = c.log ++ evs) {r : Nat} {nm name : Bytes} {t type : Nat} (k : Ident r name type c l) (hm : Event.conflict r nm t ∈ evs) :
    nm = name ∧ t = type := by
  induction n generalizing evs with
  | @nil c _ _ =>
    have : evs = [] := by
      have := congrArg List.length he
      simpa using this
    subst this
    cases hm
  | quiet _ h1 _ h3 h4 n ih =>
    obtain ⟨e2, h2, h5⟩ := calm_split h4 he n.log
    exact ih h2 ⟨by rw [h3]; exact k.lt, by rw [h1]; exact k.rr⟩ ((h5 _ _ _).mp hm)
  | @conflict c0 c1 c2 l0 l1 l2 s x x1 i hx _ n1 i1 hx1 _ n ih =>
    obtain ⟨e2, h2, h3⟩ := conflict_split n1 he n.log
    rcases (h3 _ _ _).mp hm with ⟨rfl, rfl, rfl⟩ | hm
    · exact k.rr x hx
    · exact ih h2 ((doneSt_deed hx1).named (n1.named (c := c0.heard _) ⟨k.lt, k.rr⟩)) hm

/-- C106: a record that a conflict is reported for while a packet is received, to a callback that is told its name and type, is gone after the packet or
has the lifetime zero, which is to be sent as a goodbye, whatever the callback did. -/
theorem C106_given_up_partial {env : Env} {p : Reaction} (hp : p.Considerate) {d d' : D Ptrs} (h : ReachR env p d) {now : TV} {m : Msg} {src : Addr}
    (hw : ∀ a ∈ m.an, a.WF) {a : OpOut} (e : stepR env p (.recv now m src) d = .ok (a, d')) :
    ∃ evs, d'.c.log = d.c.log ++ evs ∧ ∀ r name type, Event.conflict r name type ∈ evs →
      (∀ x, d.c.recs r = some x → x.rr.name = name ∧ x.rr.type = type) ∧ ∀ x, d'.c.recs r = some x → x.rr.ttl = 0 := by
  obtain ⟨l, hr⟩ := h.rep hp
  obtain ⟨a', d'', l', e', _, hn⟩ := hr.stepR hp (.recv now m src) hw
  rw [e] at e'
  cases e'
  have n := hn rfl
  obtain ⟨evs, he⟩ := n.log
  refine ⟨evs, he, fun r name type hm => ⟨fun x hx => ?_, n.reported he hm⟩⟩
  obtain ⟨k1, k2⟩ := n.told he (name := x.rr.name) (type := x.rr.type)
    ⟨hr.inv.rinv.bound r (by rw [hx]; rfl), fun y hy => by rw [hx] at hy; cases hy; exact ⟨rfl, rfl⟩⟩ hm
  exact ⟨k1.symm, k2.symm⟩

/-- Callbacks that withdraw no records of a name. -/
def Reaction.Spares (p : Reaction) (host : Bytes) : Prop :=
  ∀ name type c, ∀ f ∈ p name type c, ∀ (c' : Core) s x, f c' = .done s → c'.recs s = some x → x.rr.name ≠ host

/-- A record with the same name, type, lifetime and callback, as far with its probing. -/
structure Retains (x x' : Rec) : Prop where
  name : x'.rr.name = x.rr.name
  type : x'.rr.type = x.rr.type
  ttl : x'.rr.ttl = x.rr.ttl
  unique : x'.unique = x.unique
  conflict : x'.conflict = x.conflict

theorem Retains.refl (x : Rec) : Retains x x := ⟨rfl, rfl, rfl, rfl, rfl⟩

theorem Retains.trans {x y z : Rec} (h : Retains x y) (h' : Retains y z) : Retains x z :=
  ⟨h'.name.trans h.name, h'.type.trans h.type, h'.ttl.trans h.ttl, h'.unique.trans h.unique, h'.conflict.trans h.conflict⟩

theorem Deed.keeps {c c' : Core} {l l' : Lists} {o : Op} (h : Deed c l c' l' o) (i : RInv c l) {s : Nat} {x : Rec} (hx : c.recs s = some x)
    (hd : o ≠ .done s) : ∃ x', c'.recs s = some x' ∧ Retains x x' := by
  cases h with
  | same h1 _ _ => exact ⟨x, by rw [h1]; exact hx, .refl x⟩
  | @set _ r y y' hy h1 _ _ hn ht hl hu hf =>
    by_cases e : s = r
    · subst e
      rw [hx] at hy
      cases hy
      exact ⟨y', by rw [h1, upd_same], ⟨hn, ht, hl, hu, hf⟩⟩
    · exact ⟨x, by rw [h1, upd_other _ _ _ _ e]; exact hx, .refl x⟩
  | fresh h1 _ _ =>
    refine ⟨x, ?_, .refl x⟩
    rw [h1, upd_other _ _ _ _ fun e => by subst e; rw [i.absent.1] at hx; cases hx]
    exact hx
  | @bye r y _ _ h1 _ _ => exact ⟨x, by rw [h1, upd_other _ _ _ _ fun e => hd (by rw [e])]; exact hx, .refl x⟩
  | @drop r y _ _ h1 _ _ => exact ⟨x, by rw [h1, upd_other _ _ _ _ fun e => hd (by rw [e])]; exact hx, .refl x⟩

theorem Reacts.keeps {env : Env} {nm host : Bytes} {fs : List (Core → Op)} {c c' : Core} {l l' : Lists} (n : Reacts env nm fs c l c' l')
    (hf : ∀ f ∈ fs, ∀ (c' : Core) s x, f c' = .done s → c'.recs s = some x → x.rr.name ≠ host) {s : Nat} {x : Rec} (hx : c.recs s = some x)
    (hn : x.rr.name = host) : ∃ x', c'.recs s = some x' ∧ Retains x x' := by
  induction n generalizing x with
  | nil => exact ⟨x, hx, .refl x⟩
  | @cons f fs a c c1 c' l l1 l' i hc n _ ih =>
    obtain ⟨y, hy, k⟩ := (n.deed i hc).1.keeps i.rinv hx fun e => hf f (by simp) c s x e hx hn
    obtain ⟨z, hz, k'⟩ := ih (fun g m => hf g (by simp [m])) hy (k.name.trans hn)
    exact ⟨z, hz, k.trans k'⟩

theorem Trail.keeps {env : Env} {p : Reaction} {host : Bytes} (hs : p.Spares host) {c c' : Core} {l l' : Lists} (n : Trail env p c l c' l')
    {evs : List Event} (he : c'.log = c.log ++ evs) {s : Nat} {x : Rec} (hx : c.recs s = some x) (hn : x.rr.name = host)
    (hno : ∀ t, Event.conflict s host t ∉ evs) : ∃ x', c'.recs s = some x' ∧ Retains x x' := by
  induction n generalizing evs x with
  | nil _ => exact ⟨x, hx, .refl x⟩
  | quiet _ h1 _ _ h4 n ih =>
    obtain ⟨e2, h2, h3⟩ := calm_split h4 he n.log
    exact ih h2 (by rw [h1]; exact hx) hn fun t m => hno t ((h3 _ _ _).mpr m)
  | @conflict c0 c1 c2 l0 l1 l2 r y y1 i hy _ n1 i1 hy1 hn1 n ih =>
    obtain ⟨e2, h2, h3⟩ := conflict_split n1 he n.log
    obtain ⟨z, hz, k⟩ := n1.keeps (host := host) (fun f m => hs _ _ _ f m) (s := s) (x := x) hx hn
    have ne : s ≠ r := by
      intro e
      subst e
      rw [hx] at hy
      cases hy
      exact hno _ ((h3 _ _ _).mpr (.inl ⟨rfl, hn.symm, rfl⟩))
    obtain ⟨z', hz', k'⟩ := (doneSt_deed (l := l1) hy1).keeps i1.rinv hz fun e => by cases e; exact ne rfl
    obtain ⟨w, hw, k''⟩ := ih h2 hz' ((k.trans k').name.trans hn) fun t m => hno t ((h3 _ _ _).mpr (.inr m))
    exact ⟨w, hw, (k.trans k').trans k''⟩

/-- C106: a record that no conflict is reported for, of a name that no callback withdraws records of, is still there after the packet, with its name,
type, lifetime and callback, and as far with its probing. -/
theorem C106_kept_partial {env : Env} {p : Reaction} (hp : p.Considerate) {d d' : D Ptrs} (h : ReachR env p d) {now : TV} {m : Msg} {src : Addr}
    (hw : ∀ a ∈ m.an, a.WF) {a : OpOut} (e : stepR env p (.recv now m src) d = .ok (a, d')) {s : Nat} {x : Rec} (hx : d.c.recs s = some x)
    (hs : p.Spares x.rr.name) {evs : List Event} (he : d'.c.log = d.c.log ++ evs) (hno : ∀ n t, Event.conflict s n t ∉ evs) :
    ∃ x', d'.c.recs s = some x' ∧ Retains x x' := by
  obtain ⟨l, hr⟩ := h.rep hp
  obtain ⟨a', d'', l', e', _, hn⟩ := hr.stepR hp (.recv now m src) hw
  rw [e] at e'
  cases e'
  exact (hn rfl).keeps hs he hx rfl fun t => hno _ t

theorem Reacts.made {env : Env} {nm host : Bytes} {type ttl cf : Nat} {fs : List (Core → Op)} {c c' : Core} {l l' : Lists}
    (n : Reacts env nm fs c l c' l') (hf : ∀ f ∈ fs, ∀ (c' : Core) s x, f c' = .done s → c'.recs s = some x → x.rr.name ≠ host)
    (hm : ∃ f ∈ fs, ∀ c', f c' = .unique host type ttl (some cf)) :
    ∃ s x, c'.recs s = some x ∧ Retains (uniqueRec host type ttl (some cf)) x := by
  induction n with
  | nil =>
    obtain ⟨f, m, _⟩ := hm
    cases m
  | @cons f fs a c c1 c' l l1 l' i hc n n' ih =>
    obtain ⟨g, m, hg⟩ := hm
    rcases List.mem_cons.mp m with rfl | m
    · rw [hg] at n
      cases n
      obtain ⟨z, hz, k⟩ := n'.keeps (host := host) (fun g m => hf g (by simp [m])) (s := l.size) (x := uniqueRec host type ttl (some cf))
        (upd_same ..) rfl
      exact ⟨_, z, hz, k⟩
    · exact ih (fun g m => hf g (by simp [m])) ⟨g, m, hg⟩

theorem Trail.made {env : Env} {p : Reaction} {host : Bytes} (hs : p.Spares host) {c c' : Core} {l l' : Lists} (n : Trail env p c l c' l')
    {evs : List Event} (he : c'.log = c.log ++ evs) {r t type ttl cf : Nat} {nm : Bytes} (hm : Event.conflict r nm t ∈ evs)
    (hq : ∀ c, ∃ f ∈ p nm t c, ∀ c', f c' = .unique host type ttl (some cf)) (hno : ∀ s t, Event.conflict s host t ∉ evs) :
    ∃ s x, c'.recs s = some x ∧ Retains (uniqueRec host type ttl (some cf)) x := by
  induction n generalizing evs with
  | @nil c _ _ =>
    have : evs = [] := by
      have := congrArg List.length he
      simpa using this
    subst this
    cases hm
  | quiet _ _ _ _ h4 n ih =>
    obtain ⟨e2, h2, h3⟩ := calm_split h4 he n.log
    exact ih h2 ((h3 _ _ _).mp hm) fun s t m => hno s t ((h3 _ _ _).mpr m)
  | @conflict c0 c1 c2 l0 l1 l2 q x x1 i hx _ n1 i1 hx1 hn1 n ih =>
    obtain ⟨e2, h2, h3⟩ := conflict_split n1 he n.log
    rcases (h3 _ _ _).mp hm with ⟨rfl, rfl, rfl⟩ | hm'
    · obtain ⟨s, z, hz, k⟩ := n1.made (fun f m => hs _ _ _ f m) (hq _)
      have ne : s ≠ r := by
        intro e
        subst e
        rw [hx1] at hz
        cases hz
        exact hno s x.rr.type (by
          have := hm
          rwa [← hn1, k.name] at this)
      obtain ⟨z', hz', k'⟩ := (doneSt_deed (l := l1) hx1).keeps i1.rinv hz fun e => by cases e; exact ne rfl
      obtain ⟨w, hw, k''⟩ := n.keeps hs h2 hz' ((k.trans k').name) fun t m => hno s t ((h3 _ _ _).mpr (.inr m))
      exact ⟨s, w, hw, (k.trans k').trans k''⟩
    · exact ih h2 hm' fun s t m => hno s t ((h3 _ _ _).mpr (.inr m))

/-- C106: a callback that publishes a unique record under another name when told of a conflict gets it: after the packet the record is there and is
being probed, with the name, type, lifetime and callback given; if no callback withdraws records of that name and no conflict is reported for it
within the same packet. -/
theorem C106_renamed_partial {env : Env} {p : Reaction} (hp : p.Considerate) {d d' : D Ptrs} (h : ReachR env p d) {now : TV} {m : Msg} {src : Addr}
    (hw : ∀ a ∈ m.an, a.WF) {a : OpOut} (e : stepR env p (.recv now m src) d = .ok (a, d')) {evs : List Event} (he : d'.c.log = d.c.log ++ evs)
    {r t : Nat} {name : Bytes} (hm : Event.conflict r name t ∈ evs) {host : Bytes} {type ttl cf : Nat} (hs : p.Spares host)
    (hq : ∀ c, ∃ f ∈ p name t c, ∀ c', f c' = .unique host type ttl (some cf)) (hno : ∀ s t, Event.conflict s host t ∉ evs) :
    ∃ s x, d'.c.recs s = some x ∧ x.rr.name = host ∧ x.rr.type = type ∧ x.rr.ttl = ttl ∧ x.conflict = some cf ∧ x.unique = 1 ∧
      s ∈ d'.q.walk .probing := by
  obtain ⟨l, hr⟩ := h.rep hp
  obtain ⟨a', d'', l', e', hr', hn⟩ := hr.stepR hp (.recv now m src) hw
  rw [e] at e'
  cases e'
  obtain ⟨s, x, hx, k⟩ := (hn rfl).made hs he hm hq hno
  refine ⟨s, x, hx, k.name, k.type, k.ttl, k.conflict, k.unique, ?_⟩
  rw [hr'.rq.walk, hr'.inv.rinv.probing s x hx, k.unique]
  exact ⟨by simp [uniqueRec], by simp [uniqueRec]⟩

/-! ### Callbacks that only take note -/

section
variable {Q : Type} [QOps Q]

/-- Callbacks that make no calls. -/
def noReaction : Reaction := fun _ _ _ => []

theorem conflictR_plain (env : Env) (r : Nat) : (conflictR env noReaction r : M Q Unit) = Mdns.conflict r := by
  unfold conflictR Mdns.conflict
  refine congrArg (getRec r >>= ·) (funext fun x => ?_)
  cases x.conflict <;> rfl

theorem probeConflictR_plain (env : Env) (src : Addr) (q : Question) (r : Nat) : ∀ (l : List Resource) (did : Bool),
    (probeConflictR env noReaction src q r l did : M Q (Bool × Bool)) = probeConflict env src q r l did
  | [], _ => by unfold probeConflictR probeConflict; rfl
  | a :: rest, did => by
    unfold probeConflictR probeConflict
    simp only [conflictR_plain, probeConflictR_plain env src q r rest]

theorem answerLoopR_plain (env : Env) (src : Addr) (q : Question) (an : List Resource) : ∀ (n : Nat) (o : Option Nat) (did conf : Bool),
    (answerLoopR env noReaction src q an n o did conf : M Q (Bool × Bool)) = answerLoop env src q an n o did conf
  | _, none, _, _ => by unfold answerLoopR answerLoop; rfl
  | 0, some _, _, _ => by unfold answerLoopR answerLoop; rfl
  | n + 1, some r, did, conf => by
    unfold answerLoopR answerLoop
    simp only [probeConflictR_plain, answerLoopR_plain env src q an n]

theorem inQuestionR_plain (env : Env) (m : Msg) (src : Addr) (q : Question) (did : Bool) :
    (inQuestionR env noReaction m src q did : M Q Bool) = inQuestion env m src q did := by
  unfold inQuestionR inQuestion
  simp only [answerLoopR_plain]
  rfl

theorem inQuestionsR_plain (env : Env) (m : Msg) (src : Addr) : ∀ (l : List Question) (did : Bool),
    (inQuestionsR env noReaction m src l did : M Q Unit) = inQuestions env m src l did
  | [], _ => by unfold inQuestionsR inQuestions; rfl
  | q :: rest, did => by
    unfold inQuestionsR inQuestions
    simp only [inQuestionR_plain, inQuestionsR_plain env m src rest]

theorem inAnswerR_plain (env : Env) (src : Addr) (a : Resource) (did : Bool) :
    (inAnswerR env noReaction src a did : M Q Bool) = inAnswer env src a did := by
  unfold inAnswerR inAnswer
  simp only [conflictR_plain]
  rfl

theorem inAnswersR_plain (env : Env) (src : Addr) : ∀ (l : List Resource) (did : Bool),
    (inAnswersR env noReaction src l did : M Q Unit) = inAnswers env src l did
  | [], _ => by unfold inAnswersR inAnswers; rfl
  | a :: rest, did => by
    unfold inAnswersR inAnswers
    simp only [inAnswerR_plain, inAnswersR_plain env src rest]

end

/-- C106: with callbacks that make no calls, all this is what was proved before. -/
theorem C106_plain (env : Env) (o : Op) (d : D Ptrs) : stepR env noReaction o d = step env o d := by
  cases o with
  | recv now m src =>
    unfold stepR step inMsgR inMsg
    simp only [inQuestionsR_plain, inAnswersR_plain]
  | _ => rw [stepR_other env noReaction rfl]

/-! ### Concrete cases -/

namespace Sample

/-- The callback for the address of `a.` publishes it under the name `b.`, and sets the address of the record that `mdnsd_unique` returned: the first
one in its chain. -/
def renamer : Reaction := fun n t _ => if n = nm 97 ∧ t = 1 then
  [fun _ => .unique (nm 98) 1 120 (some 1), fun c => match (c.published (bucket (nm 98) sprime)).head? with
    | some r => .setIp r ipA
    | none => .receiveCallback false] else []

theorem renamer_considerate : renamer.Considerate := by
  intro n t c f m c' l' i
  unfold renamer at m
  split at m
  · rcases List.mem_cons.mp m with rfl | m
    · rfl
    · rw [List.mem_singleton] at m
      subst m
      dsimp only
      split
      · rename_i r hr
        obtain ⟨x, hx, _⟩ := i.rinv.pub _ r (List.mem_of_head? hr)
        show (c'.recs r).isSome = true
        rw [hx]
        rfl
      · trivial
  · cases m

theorem renamer_spares (host : Bytes) : renamer.Spares host := by
  intro n t c f m c' s x e
  unfold renamer at m
  split at m
  · rcases List.mem_cons.mp m with rfl | m
    · cases e
    · rw [List.mem_singleton] at m
      subst m
      dsimp only at e
      split at e <;> cases e
  · cases m

/-- One record is being probed, and another host has the name. -/
def contested (p : Reaction) : Res (OpOut × D Ptrs) :=
  stepR quiet p (.recv (at_ 101) (knows 1 [10, 0, 0, 2]) other) (trace quiet [.unique (nm 97) 1 120 (some 1)] fresh).2

theorem contesting {p : Reaction} : ReachR quiet p (trace quiet [.unique (nm 97) 1 120 (some 1)] fresh).2 :=
  .step (o := .unique (nm 97) 1 120 (some 1)) (.new 1 1500 (at_ 100)) rfl rfl

theorem contested_wf : ∀ a ∈ (knows 1 [10, 0, 0, 2]).an, a.WF :=
  opSafeB_sound (o := .recv (at_ 101) (knows 1 [10, 0, 0, 2]) other) quiet_keeps
    (d := (trace quiet [.unique (nm 97) 1 120 (some 1)] fresh).2) (by decide +kernel)

/-- The callback for record 1 withdraws record 0. -/
def both : Reaction := fun _ _ c => match c.log.getLast? with
  | some (.conflict 1 _ _) => [fun _ => .done 0]
  | _ => []

theorem contesting2 {p : Reaction} : ReachR quiet p (trace quiet [.unique (nm 97) 1 120 (some 1), .unique (nm 97) 1 120 (some 1)] fresh).2 :=
  .step (o := .unique (nm 97) 1 120 (some 1)) contesting rfl rfl

/-- The state after a call. -/
def after1 (x : Res (OpOut × D Ptrs)) : D Ptrs := match x with
  | .ok (_, d) => d
  | _ => fresh

/-- What records there are: name, type, lifetime, address. -/
def shownRecs (d : D Ptrs) : List (Bytes × Nat × Nat × Ip4) :=
  (List.range d.q.size).filterMap fun r => (d.c.recs r).map fun x => (x.rr.name, x.rr.type, x.rr.ttl, x.rr.ip)

/-- C106: the record is gone, and the one of the other name is there and being probed. -/
example : shownRecs (after1 (contested renamer)) = [(nm 98, 1, 120, ipA)] ∧ (after1 (contested renamer)).q.walk .probing = [1] ∧
    conflictsOf 0 (after1 (contested renamer)).c.log = 1 := by decide +kernel

/-- C106: the hypotheses of `C106_renamed_partial` hold there. -/
example : ∃ a d' evs, contested renamer = .ok (a, d') ∧
    d'.c.log = (trace quiet [.unique (nm 97) 1 120 (some 1)] fresh).2.c.log ++ evs ∧ Event.conflict 0 (nm 97) 1 ∈ evs ∧
    (∀ c, ∃ f ∈ renamer (nm 97) 1 c, ∀ c', f c' = .unique (nm 98) 1 120 (some 1)) ∧ ∀ s t, Event.conflict s (nm 98) t ∉ evs := by
  obtain ⟨a, d', e⟩ := (C106_safe_partial renamer_considerate contesting).1 (at_ 101) (knows 1 [10, 0, 0, 2]) other contested_wf
  have hl : (after1 (contested renamer)).c.log = [.conflict 0 (nm 97) 1] := by decide +kernel
  have e' : contested renamer = .ok (a, d') := e
  rw [e'] at hl
  refine ⟨a, d', [.conflict 0 (nm 97) 1], e', hl, by simp, fun c => ⟨_, List.mem_cons_self .., fun _ => rfl⟩, fun s t m => ?_⟩
  rw [List.mem_singleton] at m
  cases m

/-- Another one, for a record in use: `a.` is announced, and a response with its data comes from another host. -/
def inUse (p : Reaction) : Res (OpOut × D Ptrs) :=
  stepR quiet p (.recv (at_ 110) { knows 1 [10, 0, 0, 1] with header := { qr := true } } other)
    (trace quiet (opsA ++ (talk 8 101 (trace quiet opsA fresh).2 fresh).1) fresh).2

/-- C106: its goodbye is to be sent, and the one of the other name is being probed. -/
example : shownRecs (after1 (inUse renamer)) = [(nm 97, 1, 0, #v[10, 0, 0, 1]), (nm 98, 1, 120, ipA)] ∧
    (after1 (inUse renamer)).q.walk .probing = [1] ∧ conflictsOf 0 (after1 (inUse renamer)).c.log = 1 := by decide +kernel

end Sample

open Sample

/-- C106 is false in full: a callback that withdraws the record it is told of, as the library does itself right after, has it freed twice
(`libmdnsd/mdnsd.c:497-498`). -/
theorem C106_own_counterexample : ∃ d, ReachR quiet (fun _ _ _ => [fun _ => .done 0]) d ∧ ∃ now m src, (∀ a ∈ m.an, a.WF) ∧
    stepR quiet (fun _ _ _ => [fun _ => .done 0]) (.recv now m src) d = .ub :=
  ⟨_, contesting, at_ 101, knows 1 [10, 0, 0, 2], other, contested_wf, outcome_ub (by decide +kernel)⟩

/-- C106 is false in full: a callback that withdraws the other record of the name: the loop goes on with a freed record
(`libmdnsd/mdnsd.c:1155,1200`). -/
theorem C106_next_counterexample : ∃ d, ReachR quiet both d ∧ ∃ now m src, (∀ a ∈ m.an, a.WF) ∧ stepR quiet both (.recv now m src) d = .ub :=
  ⟨_, contesting2, at_ 101, knows 1 [10, 0, 0, 2], other, contested_wf, outcome_ub (by decide +kernel)⟩

/-- C106 is false in full: a callback that withdraws all records with `records_clear` (`libmdnsd/mdnsd.c:497-498`). -/
theorem C106_clear_counterexample : ∃ d, ReachR quiet (fun _ _ _ => [fun _ => .clear]) d ∧ ∃ now m src, (∀ a ∈ m.an, a.WF) ∧
    stepR quiet (fun _ _ _ => [fun _ => .clear]) (.recv now m src) d = .ub :=
  ⟨_, contesting, at_ 101, knows 1 [10, 0, 0, 2], other, contested_wf, outcome_ub (by decide +kernel)⟩

end Mdns
