import Verif.Lemmas.Asked
import Verif.Props.Packets
import Verif.Props.Queries

/-!
# C26, C27: asking
-/

namespace Mdns

/-! ### Queries in a history -/

theorem Reach.tries {env : Env} {d : D Ptrs} (h : Reach env d) : Tries d.c := by
  induction h with
  | new => intro q x hx; cases hx
  | @step d d' o a h hs e ih =>
    have hd := h.did hs e
    have hi := h.inv
    generalize d'.c = c', d'.lists = l' at hd
    by_cases ho : ∃ t, o = .send t
    · obtain ⟨t, rfl⟩ := ho
      cases hd with
      | send n => exact n.asking.tries ih
    · obtain ⟨c0, evs, h0, ht, _⟩ := hd.tends hi fun t e => ho ⟨t, e⟩
      refine ht.tries ?_
      rcases h0 with rfl | rfl
      · exact ih
      · unfold Core.clocked
        split <;> exact ih

/-- What a call does to a query. -/
theorem Reach.move {env : Env} {d d' : D Ptrs} {o : Op} {a : OpOut} (h : Reach env d) (hs : OpSafe env d.c d.q.walk o)
    (e : Mdns.step env o d = .ok (a, d')) {q : Nat} {x : Query} (hx : d.c.qs q = some x) :
    ∃ evs y, d'.c.log = d.c.log ++ evs ∧ (Event.unregistered x.name x.type ∈ evs ∨ d'.c.qs q = some y) ∧
      y.name = x.name ∧ y.type = x.type ∧
        ((Call.askTime x.name x.type (o, a) = none ∧ y.nexttry = x.nexttry ∧ y.tries = x.tries ∧ ∀ t, o ≠ .send t) ∨
          ∃ t ret m to, o = .send t ∧ a = .sent ret m to ∧
            Move { d.c with now := t } x y ret (m.asks x.name x.type)) := by
  have hd := h.did hs e
  have hi := h.inv
  by_cases ho : ∃ t, o = .send t
  · obtain ⟨t, rfl⟩ := ho
    have key : ∀ ret m to, a = .sent ret m to → ∀ r, (Section.ns, r) ∈ m.tags → ∃ p ∈ entries m.ops, p.sec = .ns := by
      rintro ret m to rfl r mr
      rcases packet_entries h hs e with h1 | ⟨h1, h2⟩
      · rw [h1] at mr
        cases mr
      · rw [h1]
        refine ⟨_, List.mem_map_of_mem mr, ?_⟩
        obtain ⟨x, hx⟩ := h2 _ mr
        unfold Core.entry
        rw [hx]
    generalize d'.c = c', d'.lists = l' at hd
    cases hd with
    | @send _ ret m to _ _ _ _ n =>
      obtain ⟨evs, y, hl, hy, e1, e2, mv⟩ := n.asking.move (c := { d.c with now := t }) h.tries (key _ _ _ rfl) hx
      exact ⟨evs, y, hl, hy, e1, e2, .inr ⟨t, ret, m, to, rfl, rfl, mv⟩⟩
  · obtain ⟨c0, evs, h0, ht, _⟩ := hd.tends hi fun t e => ho ⟨t, e⟩
    have hq : c0.qs = d.c.qs ∧ c0.log = d.c.log := by
      rcases h0 with rfl | rfl
      · exact ⟨rfl, rfl⟩
      · unfold Core.clocked
        split <;> exact ⟨rfl, rfl⟩
    have hno : Call.askTime x.name x.type (o, a) = none := by
      unfold Call.askTime
      split
      · rename_i h2
        cases h2
        exact absurd ⟨_, rfl⟩ ho
      · rfl
    have hl : d'.c.log = d.c.log ++ evs := by rw [ht.log, hq.2]
    rcases ht.kept q x (by rw [hq.1]; exact hx) with ⟨cb, h1⟩ | ⟨_, h1⟩
    · exact ⟨evs, _, hl, .inr h1, rfl, rfl, .inl ⟨hno, rfl, rfl, fun t e => ho ⟨t, e⟩⟩⟩
    · exact ⟨evs, x, hl, .inl h1, rfl, rfl, .inl ⟨hno, rfl, rfl, fun t e => ho ⟨t, e⟩⟩⟩

/-- Nothing in the cache answers the question. -/
def Bare (c : Core) (host : Bytes) (type : Nat) : Prop := ∀ a ∈ c.rrs (bucket host lprime), a.is host type = false

theorem Bare.congr {c c' : Core} {host : Bytes} {type : Nat} (h : Bare c host type) {as : List Resource} (g : Gets c c' as)
    (ha : ∀ a ∈ as, ¬ (a.name = host ∧ (type = a.type ∨ type = 255))) : Bare c' host type := by
  intro a m
  rcases g.src _ a m with ⟨b, mb, e1, e2⟩ | ⟨r, mr, e1, e2⟩
  · have := h b mb
    rw [Bool.eq_false_iff, ne_eq, is_iff] at this ⊢
    unfold typeFits at this ⊢
    rw [e1, e2] at this
    exact this
  · have := ha r mr
    rw [Bool.eq_false_iff, ne_eq, is_iff]
    unfold typeFits
    rw [← e1, ← e2]
    exact this

theorem Reach.bare {env : Env} {d d' : D Ptrs} {o : Op} {a : OpOut} (h : Reach env d) (hs : OpSafe env d.c d.q.walk o)
    (e : Mdns.step env o d = .ok (a, d')) {host : Bytes} {type : Nat} (hb : Bare d.c host type)
    (ha : ∀ a ∈ o.hears, ¬ (a.name = host ∧ (type = a.type ∨ type = 255))) : Bare d'.c host type := by
  have hd := h.did hs e
  have hi := h.inv
  generalize d'.c = c', d'.lists = l' at hd
  by_cases ho : ∃ t, o = .send t
  · obtain ⟨t, rfl⟩ := ho
    cases hd with
    | send n => exact fun a m => hb a (n.asking.sub _ a m)
  · obtain ⟨c0, evs, _, _, g, _⟩ := hd.tends hi fun t e => ho ⟨t, e⟩
    exact hb.congr g ha

/-! ### C26 -/

/-- How often a question was asked, and when it is asked next. -/
inductive Phase (t0 : Nat) : List Nat → Nat → Nat → Prop
  | zero : Phase t0 [] t0 0
  | one {t1 : Nat} (h1 : t0 ≤ t1) : Phase t0 [t1] (t1 + 1) 1
  | two {t1 t2 : Nat} (h1 : t0 ≤ t1) (h2 : t1 + 1 ≤ t2) : Phase t0 [t1, t2] (t2 + 2) 2
  | three {t1 t2 t3 : Nat} (h1 : t0 ≤ t1) (h2 : t1 + 1 ≤ t2) (h3 : t2 + 2 ≤ t3) : Phase t0 [t1, t2, t3] (t3 + 3) 3
  | rest {t1 t2 t3 : Nat} (h1 : t0 ≤ t1) (h2 : t1 + 1 ≤ t2) (h3 : t2 + 2 ≤ t3) : Phase t0 [t1, t2, t3] 0 0

theorem Phase.turn {t0 n k n' k' : Nat} {l : List Nat} {b : Bool} {c : Core} {host : Bytes} {type : Nat}
    (h : Phase t0 l n k) (hb : Bare c host type) (t : Turn c host type n k n' k' b) :
    Phase t0 (l ++ if b then [c.now.sec] else []) n' k' := by
  cases t with
  | idle _ => simpa using h
  | ask hn h3 =>
    cases h with
    | zero => exact .one (by omega)
    | one h1 => exact .two h1 (by omega)
    | two h1 h2 => exact .three h1 h2 (by omega)
    | three => exact absurd rfl h3
    | rest => exact absurd (.inl rfl) hn
  | again hn h' =>
    have : n' = 0 := by
      rcases h' with h' | ⟨a, ma, ha, _⟩
      · exact h'
      · rw [hb a ma] at ha
        cases ha
    subst this
    cases h with
    | three h1 h2 h3 => exact .rest h1 h2 h3

theorem askTimes_snoc (host : Bytes) (type : Nat) (h : List Call) (k : Call) :
    askTimes host type (h ++ [k]) = askTimes host type h ++ (Call.askTime host type k).toList := by
  unfold askTimes
  rw [List.filterMap_append]
  cases e : Call.askTime host type k <;> simp [e]

/-- The query is registered, nothing answers it, and it is as often asked as the calls say. -/
structure Asks (d : D Ptrs) (host : Bytes) (type t0 : Nat) (l : List Nat) : Prop where
  bare : Bare d.c host type
  query : ∃ q x, d.c.qs q = some x ∧ x.name = host ∧ x.type = type ∧ Phase t0 l x.nexttry x.tries

theorem Calls.reach' {env : Env} {d d' : D Ptrs} {h : List Call} (n : Calls env d h d') (hr : Reach env d) : Reach env d' := by
  induction n with
  | nil => exact hr
  | snoc _ hs e ih => exact .step ih hs e

theorem Calls.log {env : Env} {d d' : D Ptrs} {h : List Call} (n : Calls env d h d') (hr : Reach env d) :
    ∃ evs, d'.c.log = d.c.log ++ evs := by
  induction n with
  | nil => exact ⟨[], by simp⟩
  | snoc n hs e ih =>
    obtain ⟨e1, h1⟩ := ih
    obtain ⟨e2, h2⟩ := (After.step .refl hs e).log (n.reach' hr)
    exact ⟨e1 ++ e2, by rw [h2, h1, List.append_assoc]⟩

theorem Calls.asks {env : Env} {d d' : D Ptrs} {h : List Call} {host : Bytes} {type t0 : Nat} {evs : List Event}
    (n : Calls env d h d') (hr : Reach env d) (h0 : Asks d host type t0 []) (hu : Unanswered host type h)
    (hl : d'.c.log = d.c.log ++ evs) (hn : .unregistered host type ∉ evs) : Asks d' host type t0 (askTimes host type h) := by
  induction n generalizing evs with
  | nil => exact h0
  | @snoc h d1 d2 o a n hs e ih =>
    have hr1 := n.reach' hr
    obtain ⟨ev1, hl1⟩ := n.log hr
    obtain ⟨ev2, hl2⟩ := (After.step .refl hs e).log hr1
    have hev : evs = ev1 ++ ev2 := by
      rw [hl2, hl1, List.append_assoc] at hl
      exact (List.append_cancel_left hl).symm
    subst hev
    have ih := ih (fun k m => hu k (by simp [m])) hl1 fun m => hn (by simp [m])
    have ho := hu (o, a) (by simp)
    refine ⟨hr1.bare hs e ih.bare ho, ?_⟩
    obtain ⟨q, x, hx, rfl, rfl, ph⟩ := ih.query
    obtain ⟨ev3, y, hl3, hy, e1, e2, mv⟩ := hr1.move hs e hx
    rw [hl2] at hl3
    have := List.append_cancel_left hl3
    subst this
    rw [askTimes_snoc]
    have hy := hy.resolve_left fun m => hn (by simp [m])
    rcases mv with ⟨h1, h2, h3, _⟩ | ⟨t, ret, m, to, rfl, rfl, mv⟩
    · refine ⟨q, y, hy, e1, e2, ?_⟩
      rw [h1, h2, h3]
      simpa using ph
    · refine ⟨q, y, hy, e1, e2, ?_⟩
      show Phase t0 (_ ++ (if m.asks x.name x.type = true then some t.sec else none).toList) _ _
      generalize m.asks x.name x.type = b at mv
      cases mv with
      | turn h _ =>
        have := ph.turn (c := { d1.c with now := t }) ih.bare h
        cases b <;> exact this
      | same h1 h2 _ =>
        rw [h1, h2]
        simpa using ph

/-- A query is made that was not there. -/
theorem Reach.asks {env : Env} {d d1 : D Ptrs} {host : Bytes} {type cb : Nat} {a : OpOut} (h : Reach env d)
    (hn : callback d.c.log host type = none) (hc : d.c.listed host type = [])
    (e : Mdns.step env (.query host type (some cb)) d = .ok (a, d1)) : Asks d1 host type d.c.now.sec [] := by
  have hs : OpSafe env d.c d.q.walk (.query host type (some cb)) := trivial
  have hb : Bare d.c host type := by
    intro b m
    cases hi : b.is host type with
    | false => rfl
    | true =>
      have : b ∈ d.c.listed host type := by rw [listed_eq, List.mem_filter]; exact ⟨m, hi⟩
      rw [hc] at this
      cases this
  refine ⟨h.bare hs e hb (by intro a m; cases m), ?_⟩
  have hd := h.did hs e
  have hi1 := (h.step hs e).inv.cinv
  have hi := h.inv.cinv
  generalize d1.c = c', d1.lists = l' at hd hi1
  cases hd with
  | query e1 _ =>
    obtain ⟨c1, e2, rg, hl⟩ := hi.queryOn host type cb
    rw [e1] at e2
    cases e2
    have : callback c'.log host type = some cb := by rw [hl, callback_append_registered, if_pos ⟨rfl, rfl⟩]
    obtain ⟨q, x, hx, e3, e4, _⟩ := (hi1.tcb host type cb).mp this
    refine ⟨q, x, hx, e3, e4, ?_⟩
    rcases rg.new q x hx with ⟨cb', h1⟩ | ⟨_, _, h1, h2, _⟩
    · have := (hi.tcb host type cb').mpr ⟨q, _, h1, e3, e4, rfl⟩
      rw [hn] at this
      cases this
    · rw [h1, h2]
      exact .zero

/-- C26: a query for something that nothing is known about, and that gets no answer, is asked at
most three times while it is registered, whatever is called and whatever the clock shows: not
before it is made, again at the earliest after one second, and the last time at the earliest two
seconds after that. -/
theorem C26_at_most_three {env : Env} {d d1 d2 : D Ptrs} {host : Bytes} {type cb : Nat} {a : OpOut} {h : List Call}
    {evs : List Event} (hr : Reach env d) (hnew : callback d.c.log host type = none) (hc : d.c.listed host type = [])
    (e : Mdns.step env (.query host type (some cb)) d = .ok (a, d1)) (n : Calls env d1 h d2)
    (hu : Unanswered host type h) (hl : d2.c.log = d1.c.log ++ evs) (hreg : .unregistered host type ∉ evs) :
    ∃ t1 t2 t3, d.c.now.sec ≤ t1 ∧ t1 + 1 ≤ t2 ∧ t2 + 2 ≤ t3 ∧ askTimes host type h <+: [t1, t2, t3] := by
  obtain ⟨_, q, x, _, _, _, ph⟩ := n.asks (hr.step (o := .query host type (some cb)) trivial e) (hr.asks hnew hc e) hu hl hreg
  generalize askTimes host type h = l, d.c.now.sec = t0, x.nexttry = nt, x.tries = k at ph ⊢
  cases ph with
  | zero => exact ⟨_, _, _, Nat.le_refl _, Nat.le_refl _, Nat.le_refl _, List.nil_prefix⟩
  | @one t1 h1 => exact ⟨t1, t1 + 1, t1 + 1 + 2, h1, Nat.le_refl _, Nat.le_refl _, by simp⟩
  | @two t1 t2 h1 h2 => exact ⟨t1, t2, t2 + 2, h1, h2, Nat.le_refl _, by simp⟩
  | three h1 h2 h3 => exact ⟨_, _, _, h1, h2, h3, List.prefix_refl _⟩
  | rest h1 h2 h3 => exact ⟨_, _, _, h1, h2, h3, List.prefix_refl _⟩

theorem Later.calls {env : Env} {h : List Call} {d d' : D Ptrs} {T T' : Nat} (n : Later env d T h d' T') : Calls env d h d' := by
  induction n with
  | nil => exact .nil
  | snoc _ hs e _ _ ih => exact .snoc ih hs e

theorem Timed.reach {env : Env} {h : List Call} {d : D Ptrs} {T : Nat} (n : Timed env h d T) : Reach env d := by
  obtain ⟨_, _, _, _, n⟩ := n
  exact n.calls.reach' (.new ..)

theorem Later.le {env : Env} {h : List Call} {d d' : D Ptrs} {T T' : Nat} (n : Later env d T h d' T') : T ≤ T' := by
  induction n with
  | nil => exact Nat.le_refl _
  | snoc _ _ _ _ hle ih => exact Nat.le_trans ih hle

/-- The clock is set, and the time at which queries are looked at is early enough. -/
def Punctual (d : D Ptrs) (T : Nat) : Prop := 0 < d.c.now.sec ∧ d.c.now.sec ≤ T ∧ Timely T d.c

theorem Later.punctual {env : Env} {h : List Call} {d d' : D Ptrs} {T T' : Nat} (n : Later env d T h d' T')
    (hr : Reach env d) (hp : Punctual d T) : Punctual d' T' := by
  induction n with
  | nil => exact hp
  | @snoc h d d' o a T T' n hs e hT hle ih =>
    obtain ⟨i1, i2, i3⟩ := ih
    have hr := n.calls.reach' hr
    have hd := hr.did hs e
    have hi := hr.inv
    unfold Punctual
    generalize d'.c = c', d'.lists = l' at hd
    by_cases ho : ∃ t, o = .send t
    · obtain ⟨t, rfl⟩ := ho
      have hT : T' = t.sec := hT
      subst hT
      cases hd with
      | send n =>
        refine ⟨?_, ?_, n.asking.timely (c := { d.c with now := t }) (i3.mono hle) (Nat.le_refl _) (by show 0 < t.sec; omega)⟩
        · rw [n.asking.now]; show 0 < t.sec; omega
        · rw [n.asking.now]; exact Nat.le_refl _
    · obtain ⟨c0, evs, h0, ht, _⟩ := hd.tends hi fun t e => ho ⟨t, e⟩
      have h0 : 0 < c0.now.sec ∧ c0.now.sec ≤ T' ∧ Timely T' c0 := by
        rcases h0 with rfl | rfl
        · exact ⟨i1, by omega, i3.mono hle⟩
        · unfold Core.clocked
          split
          · rename_i t ht
            rw [ht] at hT
            simp only at hT
            exact ⟨by show 0 < t.sec; omega, by show t.sec ≤ T'; omega, i3.mono hle⟩
          · exact ⟨i1, by omega, i3.mono hle⟩
      rw [ht.now]
      exact ⟨h0.1, h0.2.1, ht.timely h0.2.2 h0.2.1 h0.1⟩

theorem Timed.punctual {env : Env} {h : List Call} {d : D Ptrs} {T : Nat} (n : Timed env h d T) : Punctual d T := by
  obtain ⟨_, _, now, h0, n⟩ := n
  exact n.punctual (.new ..) ⟨h0, Nat.le_refl _, fun q x hx => by cases hx⟩

/-- C26: and it is asked: whenever `mdnsd_out` finds nothing to send, the query has been asked,
a second time if one second has passed since, and a third time if two more seconds have passed
since that. The clock must not be set back, and the daemon not be shut down. -/
theorem C26_asked {env : Env} {d d1 d2 d3 : D Ptrs} {host : Bytes} {type cb : Nat} {a : OpOut} {pre post : List Call}
    {evs : List Event} {T0 T : Nat} (hr : Timed env pre d T0) (hnew : callback d.c.log host type = none)
    (hc : d.c.listed host type = []) (e : Mdns.step env (.query host type (some cb)) d = .ok (a, d1))
    (n : Later env d1 T0 post d2 T) (hu : Unanswered host type post) (hl : d2.c.log = d1.c.log ++ evs)
    (hreg : .unregistered host type ∉ evs) {now : TV} {m : Out} {to : Addr}
    (hs : OpSafe env d2.c d2.q.walk (.send now)) (hT : T ≤ now.sec) (hsd : d2.c.shutdown = false)
    (e3 : Mdns.step env (.send now) d2 = .ok (.sent 0 m to, d3)) :
    (∃ t1, askTimes host type post = [t1] ∧ now.sec < t1 + 1) ∨
      (∃ t1 t2, askTimes host type post = [t1, t2] ∧ now.sec < t2 + 2) ∨
      ∃ t1 t2 t3, askTimes host type post = [t1, t2, t3] := by
  have hs1 : OpSafe env d.c d.q.walk (.query host type (some cb)) := trivial
  have hr1 : Reach env d1 := hr.reach.step hs1 e
  have hr2 := n.calls.reach' hr1
  have p0 := hr.punctual
  have p1 : Punctual d1 T0 := (Later.snoc .nil hs1 e rfl (Nat.le_refl _)).punctual hr.reach p0
  obtain ⟨_, _, p2⟩ := n.punctual hr1 p1
  obtain ⟨_, q, x, hx, rfl, rfl, ph⟩ := n.calls.asks hr1 (hr.reach.asks hnew hc e) hu hl hreg
  -- the query is not due
  have key : x.nexttry = 0 ∨ now.sec < x.nexttry ∨ x.tries = 3 := by
    have wake : ¬ (d2.c.checkqlist ≠ 0 ∧ now.sec ≥ d2.c.checkqlist) → x.nexttry = 0 ∨ now.sec < x.nexttry := by
      intro h
      by_cases hz : x.nexttry = 0
      · exact .inl hz
      · obtain ⟨h1, h2⟩ := p2 q x hx (by omega)
        omega
    obtain ⟨_, y, _, _, _, _, ⟨_, _, _, h⟩ | ⟨t, ret, m, to, ht, ha, mv⟩⟩ := hr2.move hs e3 hx
    · exact absurd rfl (h now)
    · cases ht
      cases ha
      generalize m.asks x.name x.type = b at mv
      cases mv with
      | turn h hb =>
        generalize x.nexttry = nt, x.tries = k, y.nexttry = nt', y.tries = k' at h
        cases h with
        | idle h => exact h.elim .inl fun h => .inr (.inl h)
        | ask _ _ => exact absurd (hb rfl) (by simp)
        | again _ _ => exact .inr (.inr rfl)
      | same _ _ h =>
        rcases h rfl with h | h
        · rw [show d2.c.shutdown = true from h] at hsd
          cases hsd
        · exact (wake h).elim .inl fun h => .inr (.inl h)
  have hp := p0.1
  have hp' := p0.2.1
  have hle := n.le
  generalize askTimes x.name x.type post = l, d.c.now.sec = t0, x.nexttry = nt, x.tries = k at ph key hp hp' ⊢
  cases ph with
  | zero => omega
  | one _ => exact .inl ⟨_, rfl, by omega⟩
  | two _ _ => exact .inr (.inl ⟨_, _, rfl, by omega⟩)
  | three _ _ _ => exact .inr (.inr ⟨_, _, _, rfl⟩)
  | rest _ _ _ => exact .inr (.inr ⟨_, _, _, rfl⟩)

/-! ### C27 -/

/-- The question packet of a call, if it is one. -/
theorem Reach.asking {env : Env} {d d' : D Ptrs} (h : Reach env d) {now : TV} {ret : Nat} {m : Out} {to : Addr}
    (hs : OpSafe env d.c d.q.walk (.send now)) (e : Mdns.step env (.send now) d = .ok (.sent ret m to, d'))
    {host : Bytes} {type : Nat} (ha : m.asks host type = true) :
    ∃ (c2 : Core) (t : QSt), c2.recfree = ({ d.c with now := now } : Core).recfree ∧ m = t.m ∧
      Upd env c2.qlist ⟨c2, blankQ.add ((c2.dueQs c2.qlist).map c2.questionOf),
        (c2.qlist.filterMap c2.qs).foldl c2.nextBest 0, 0⟩ t := by
  have hd := h.did hs e
  have key : ∀ r, (Section.ns, r) ∈ m.tags → ∃ p ∈ entries m.ops, p.sec = .ns := by
    intro r mr
    rcases packet_entries h hs e with h1 | ⟨h1, h2⟩
    · rw [h1] at mr
      cases mr
    · rw [h1]
      refine ⟨_, List.mem_map_of_mem mr, ?_⟩
      obtain ⟨x, hx⟩ := h2 _ mr
      unfold Core.entry
      rw [hx]
  unfold Out.asks at ha
  simp only [Bool.and_eq_true, Bool.not_eq_true', List.all_eq_true, bne_iff_ne] at ha
  obtain ⟨⟨hq, hns⟩, hany⟩ := ha
  generalize d'.c = c', d'.lists = l' at hd
  cases hd with
  | send n =>
    cases n.asking with
    | other _ h _ =>
      rcases h with h | h | ⟨r, h⟩
      · rw [hq] at h; cases h
      · rw [h] at hany; cases hany
      · obtain ⟨p, mp, hp⟩ := key r h
        exact absurd hp (hns p mp)
    | asking e2 nq _ =>
      cases nq with
      | no => cases hany
      | yes _ _ n2 => exact ⟨_, _, e2, rfl, n2⟩

/-- C27, nothing else: every entry of a packet with questions is a cached answer to one of the
questions, with more than eight seconds left, with the remaining seconds as lifetime and with its
data. Its type in the packet is that of the question: so this holds in full for questions that are
not for any type, see `C27_any_counterexample`. -/
theorem C27_known_answers {env : Env} {d d' : D Ptrs} (h : Reach env d) {now : TV} {ret : Nat} {m : Out} {to : Addr}
    (hs : OpSafe env d.c d.q.walk (.send now)) (e : Mdns.step env (.send now) d = .ok (.sent ret m to, d'))
    {host : Bytes} {type : Nat} (ha : m.asks host type = true) {p : PEntry} (mp : p ∈ entries m.ops) :
    ∃ a ∈ d.c.listed p.name p.type, m.asks p.name p.type = true ∧ p.sec = .an ∧ p.cls = d.c.cls ∧
      now.sec + 8 < a.ttl ∧ p.ttl = a.ttl - now.sec ∧ WritesData a p.data ∧
      a.name = p.name ∧ (p.type ≠ 255 → a.type = p.type) := by
  obtain ⟨c2, t, e2, rfl, n⟩ := h.asking hs e ha
  have st := Still.recfree e2
  have hi : CInv c2 := n.start
  rcases n.sound hi.lnodup hi.qlist p mp with h1 | ⟨q, mq, x, hx, hn, a, ma, hia, hl, rfl⟩
  · have h1 : p ∈ entries ([] ++ _) := h1
    rw [List.nil_append, entries_due] at h1
    cases h1
  · have hnow : c2.now = now := st.now
    have hcls : c2.cls = d.c.cls := (congrArg Core.cls e2 : c2.recfree.cls = _)
    have ma : a ∈ c2.rrs (bucket x.name lprime) := ma
    rw [st.rrs] at ma
    have hl : c2.now.sec + 8 < a.ttl := hl
    rw [hnow] at hl
    obtain ⟨h1, h2⟩ := (is_iff _ _ _).mp hia
    refine ⟨a, ?_, ?_, rfl, hcls, hl, ?_, writesData_aCopy a, h1, ?_⟩
    · rw [listed_eq, List.mem_filter]
      exact ⟨ma, hia⟩
    · unfold Out.asks at ha ⊢
      rw [Bool.and_eq_true] at ha ⊢
      refine ⟨ha.1, ?_⟩
      rw [n.questions]
      show (questions ([] ++ _)).any _ = true
      rw [List.nil_append, questions_due, List.any_eq_true]
      refine ⟨_, List.mem_map_of_mem (mem_dueQs.mpr ⟨q, mq, hx, ?_⟩), decide_eq_true ⟨rfl, rfl⟩⟩
      have hx : d.c.qs q = some x := by
        have : c2.qs q = some x := hx
        rw [st.qs] at this
        exact this
      have := h.tries q x hx
      have hn' : ¬ (x.nexttry = 0 ∨ x.nexttry > c2.now.sec) := hn.1
      have := hn.2
      unfold Core.due
      omega
    · show a.ttl - c2.now.sec = _
      rw [hnow]
    · intro h255
      have h255 : x.type ≠ 255 := h255
      rcases h2 with h2 | h2
      · exact h2.symm
      · exact absurd h2 h255

/-- C27, all of them: a cached answer to a question of the packet, with more than eight seconds
left, is in the packet, if all cached answers to the question have more than eight seconds left and
each of them would still fit in the packet. That the others are there when one of them is about to
expire does not hold, see `C27_stale_counterexample`. -/
theorem C27_complete_partial {env : Env} {d d' : D Ptrs} (h : Reach env d) {now : TV} {ret : Nat} {m : Out} {to : Addr}
    (hs : OpSafe env d.c d.q.walk (.send now)) (e : Mdns.step env (.send now) d = .ok (.sent ret m to, d'))
    {host : Bytes} {type : Nat} (ha : m.asks host type = true)
    (hlong : ∀ b ∈ d.c.listed host type, now.sec + 8 < b.ttl) (hfit : ∀ b ∈ d.c.listed host type, m.len + rrLen b < d.c.frame)
    {a : Answer} (ma : a ∈ d.c.listed host type) :
    ∃ p ∈ entries m.ops, p.sec = .an ∧ p.name = host ∧ p.type = type ∧ p.cls = d.c.cls ∧ p.ttl = a.ttl - now.sec ∧
      WritesData a p.data := by
  obtain ⟨c2, t, e2, rfl, n⟩ := h.asking hs e ha
  have st := Still.recfree e2
  have hi : CInv c2 := n.start
  have hnow : c2.now = now := st.now
  have hcls : c2.cls = d.c.cls := (congrArg Core.cls e2 : c2.recfree.cls = _)
  have hfr : c2.frame = d.c.frame := (congrArg Core.frame e2 : c2.recfree.frame = _)
  have hrr : ∀ j, c2.rrs j = d.c.rrs j := st.rrs
  unfold Out.asks at ha
  rw [Bool.and_eq_true] at ha
  have ha := ha.2
  rw [n.questions] at ha
  have ha : (questions ([] ++ _)).any _ = true := ha
  rw [List.nil_append, questions_due, List.any_eq_true] at ha
  obtain ⟨_, m1, h1⟩ := ha
  obtain ⟨x, mx, rfl⟩ := List.mem_map.mp m1
  obtain ⟨q, mq, hx, hdue⟩ := mem_dueQs.mp mx
  obtain ⟨rfl, rfl⟩ := of_decide_eq_true h1
  simp only [listed_eq, List.mem_filter] at hlong hfit ma
  have hl := hlong a ma
  rcases n.complete hi.lnodup mq hx (by unfold Core.due at hdue; unfold Core.asksNow; simp only; omega) (a := a)
      (by rw [hrr]; exact ma.1) ma.2 (by show c2.now.sec < _; rw [hnow]; omega) with h1 | ⟨b, mb, hb, h1⟩
  · refine ⟨_, h1, rfl, rfl, rfl, hcls, ?_, writesData_aCopy a⟩
    show a.ttl - c2.now.sec = _
    rw [hnow]
  · have mb : b ∈ c2.rrs (bucket x.name lprime) := mb
    rw [hrr] at mb
    have h2 := hlong b ⟨mb, hb⟩
    have h3 := hfit b ⟨mb, hb⟩
    have h1 : b.ttl ≤ c2.now.sec + 8 ∨ c2.frame ≤ t.m.len + rrLen b := h1
    rw [hnow, hfr] at h1
    omega

/-! ### Concrete cases -/

namespace Sample

/-- Packets are made in the given seconds. -/
def sends (l : List Nat) : List Op := l.map fun t => .send (at_ t)

def asking1 : D Ptrs := (trace quiet [.query (nm 97) 12 (some 7)] fresh).2

theorem asking1_step : ∃ a, Mdns.step quiet (.query (nm 97) 12 (some 7)) fresh = .ok (a, asking1) :=
  step_of (.new ..) trivial

theorem later_of : ∀ (l : List Nat) (T : Nat) (d0 d : D Ptrs) (T0 : Nat) (h0 : List Call), Later quiet d0 T0 h0 d T →
    safeRunB quiet d (sends l) = true → (T :: l).Pairwise (· ≤ ·) →
    Later quiet d0 T0 (h0 ++ (trace quiet (sends l) d).1) (trace quiet (sends l) d).2 ((T :: l).getLast (by simp))
  | [], T, d0, d, T0, h0, n, _, _ => by simpa [trace, sends] using n
  | t :: l, T, d0, d, T0, h0, n, hb, hp => by
    have hb : safeRunB quiet d (.send (at_ t) :: sends l) = true := hb
    show Later quiet d0 T0 (h0 ++ (trace quiet (.send (at_ t) :: sends l) d).1)
      (trace quiet (.send (at_ t) :: sends l) d).2 _
    unfold safeRunB at hb
    rw [Bool.and_eq_true] at hb
    unfold trace
    cases e : Mdns.step quiet (.send (at_ t)) d with
    | ok p =>
      have h2 := hb.2
      rw [e] at h2
      have hle : T ≤ t := (List.pairwise_cons.mp hp).1 t (by simp)
      have := later_of l t d0 p.2 T0 _ (Later.snoc n (opSafeB_sound quiet_keeps hb.1) e (T' := t) rfl hle) h2
        (List.pairwise_cons.mp hp).2
      rw [List.getLast_cons (by simp)]
      simpa using this
    | ub => rw [e] at hb; cases hb.2
    | hang => rw [e] at hb; cases hb.2

/-- C26: the question is asked at once, after one second and after two more seconds, and not
again. -/
example : Reach quiet fresh ∧ Timed quiet [] fresh 100 ∧ callback fresh.c.log (nm 97) 12 = none ∧
    fresh.c.listed (nm 97) 12 = [] ∧ (∃ a, Mdns.step quiet (.query (nm 97) 12 (some 7)) fresh = .ok (a, asking1)) ∧
    Later quiet asking1 100 (trace quiet (sends [100, 100, 101, 102, 103, 104, 106, 120, 300]) asking1).1
      (trace quiet (sends [100, 100, 101, 102, 103, 104, 106, 120, 300]) asking1).2 300 ∧
    Unanswered (nm 97) 12 (trace quiet (sends [100, 100, 101, 102, 103, 104, 106, 120, 300]) asking1).1 ∧
    (trace quiet (sends [100, 100, 101, 102, 103, 104, 106, 120, 300]) asking1).2.c.log = asking1.c.log ++ [] ∧
    askTimes (nm 97) 12 (trace quiet (sends [100, 100, 101, 102, 103, 104, 106, 120, 300]) asking1).1 = [100, 101, 103] := by
  refine ⟨.new .., ⟨1, 1500, at_ 100, by decide, .nil⟩, by decide +kernel, by decide +kernel, asking1_step, ?_, ?_, by decide +kernel,
    by decide +kernel⟩
  · have := later_of [100, 100, 101, 102, 103, 104, 106, 120, 300] 100 asking1 asking1 100 [] .nil (by decide +kernel) (by decide)
    simpa using this
  · unfold Unanswered
    decide +kernel

/-- The packet `mdnsd_out` makes. -/
def packetAt (now : TV) (d : D Ptrs) : Option (Nat × Out) :=
  match Mdns.step quiet (.send now) d with
  | .ok (.sent ret m _, _) => some (ret, m)
  | _ => none

theorem packet_of {d : D Ptrs} (hr : Reach quiet d) (now : TV) : ∃ ret m to d',
    Mdns.step quiet (.send now) d = .ok (.sent ret m to, d') ∧ OpSafe quiet d.c d.q.walk (.send now) ∧
      packetAt now d = some (ret, m) := by
  obtain ⟨ret, m, to, d', e, hs, _⟩ := sent_of hr now
  exact ⟨ret, m, to, d', e, hs, by unfold packetAt; rw [e]⟩

/-- C26: in between there is nothing to send. -/
example : (packetAt (at_ 100) (trace quiet (sends [100]) asking1).2).map (·.1) = some 0 := by decide +kernel

/-- Two answers are cached, the one that is listed first goes soon. -/
def heard2 (type : Nat) : List Op := [.query (nm 97) type (some 7),
  .recv (at_ 101) { ptrMsg 10 with an := [ptrTo 98 1 100, ptrTo 99 1 10] } other]

/-- C27: both answers accompany the question. -/
example : ∃ d d' ret m to, Reach quiet d ∧ OpSafe quiet d.c d.q.walk (.send (at_ 103)) ∧
    Mdns.step quiet (.send (at_ 103)) d = .ok (.sent ret m to, d') ∧ m.asks (nm 97) 12 = true ∧
    (∀ b ∈ d.c.listed (nm 97) 12, 103 + 8 < b.ttl) ∧ (∀ b ∈ d.c.listed (nm 97) 12, m.len + rrLen b < d.c.frame) ∧
    (entries m.ops).map (fun p => (p.name, p.type, p.ttl)) = [(nm 97, 12, 11), (nm 97, 12, 56)] := by
  have hr : Reach quiet (trace quiet (heard2 12) fresh).2 := (hist_of (by decide +kernel)).reach
  obtain ⟨ret, m, to, d', e, hs, hp⟩ := packet_of hr (at_ 103)
  have h : ∃ p, packetAt (at_ 103) (trace quiet (heard2 12) fresh).2 = some p ∧ p.2.asks (nm 97) 12 = true ∧
      (∀ b ∈ (trace quiet (heard2 12) fresh).2.c.listed (nm 97) 12, p.2.len + rrLen b < (trace quiet (heard2 12) fresh).2.c.frame) ∧
      (entries p.2.ops).map (fun p => (p.name, p.type, p.ttl)) = [(nm 97, 12, 11), (nm 97, 12, 56)] := by
    refine ⟨(packetAt (at_ 103) (trace quiet (heard2 12) fresh).2).get (by decide +kernel), by simp, ?_, ?_, ?_⟩ <;> decide +kernel
  obtain ⟨p, h1, h2, h3, h4⟩ := h
  rw [hp] at h1
  cases h1
  exact ⟨_, d', ret, m, to, hr, hs, e, h2, by decide +kernel, h3, h4⟩

end Sample

open Sample in
/-- C27: in a packet with a question for any type the known answers have type ANY instead of their
own (`libmdnsd/mdnsd.c:1441` writes the type of the query). -/
theorem C27_any_counterexample : ∃ d d' ret m to, Reach quiet d ∧ OpSafe quiet d.c d.q.walk (.send (at_ 103)) ∧
    Mdns.step quiet (.send (at_ 103)) d = .ok (.sent ret m to, d') ∧ m.asks (nm 97) 255 = true ∧
    (d.c.listed (nm 97) 255).map (·.type) = [12, 12] ∧ (entries m.ops).map (·.type) = [255, 255] := by
  have hr : Reach quiet (trace quiet (heard2 255) fresh).2 := (hist_of (by decide +kernel)).reach
  obtain ⟨ret, m, to, d', e, hs, hp⟩ := packet_of hr (at_ 103)
  have h : ∃ p, packetAt (at_ 103) (trace quiet (heard2 255) fresh).2 = some p ∧ p.2.asks (nm 97) 255 = true ∧
      (entries p.2.ops).map (·.type) = [255, 255] := by
    refine ⟨(packetAt (at_ 103) (trace quiet (heard2 255) fresh).2).get (by decide +kernel), by simp, ?_, ?_⟩ <;> decide +kernel
  obtain ⟨p, h1, h2, h3⟩ := h
  rw [hp] at h1
  cases h1
  exact ⟨_, d', ret, m, to, hr, hs, e, h2, by decide +kernel, h3⟩

open Sample in
/-- C27: an answer that has 52 seconds left and would fit is missing, because one that is listed
before it has no more than eight seconds left (`libmdnsd/mdnsd.c:1437-1438` ends the loop
there). -/
theorem C27_stale_counterexample : ∃ d d' ret m to, Reach quiet d ∧ OpSafe quiet d.c d.q.walk (.send (at_ 107)) ∧
    Mdns.step quiet (.send (at_ 107)) d = .ok (.sent ret m to, d') ∧ m.asks (nm 97) 12 = true ∧
    (d.c.listed (nm 97) 12).map (·.ttl) = [114, 159] ∧ (∀ b ∈ d.c.listed (nm 97) 12, m.len + rrLen b < d.c.frame) ∧
    entries m.ops = [] := by
  have hr : Reach quiet (trace quiet (heard2 12) fresh).2 := (hist_of (by decide +kernel)).reach
  obtain ⟨ret, m, to, d', e, hs, hp⟩ := packet_of hr (at_ 107)
  have h : ∃ p, packetAt (at_ 107) (trace quiet (heard2 12) fresh).2 = some p ∧ p.2.asks (nm 97) 12 = true ∧
      (∀ b ∈ (trace quiet (heard2 12) fresh).2.c.listed (nm 97) 12, p.2.len + rrLen b < (trace quiet (heard2 12) fresh).2.c.frame) ∧
      entries p.2.ops = [] := by
    refine ⟨(packetAt (at_ 107) (trace quiet (heard2 12) fresh).2).get (by decide +kernel), by simp, ?_, ?_, ?_⟩ <;> decide +kernel
  obtain ⟨p, h1, h2, h3, h4⟩ := h
  rw [hp] at h1
  cases h1
  exact ⟨_, d', ret, m, to, hr, hs, e, h2, by decide +kernel, h3, h4⟩

end Mdns
