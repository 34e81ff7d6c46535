import Verif.Lemmas.Renewal

/-!
# C83: what is known is asked for again before it expires
-/

namespace Mdns

/-! ### Specification -/

/-- The records that a call receives as answers of a response. -/
def Op.told : Op → List Resource
  | .recv _ m _ => if m.header.qr = true then m.an else []
  | _ => []

/-- The record answers the question. -/
def Resource.answers (r : Resource) (host : Bytes) (type : Nat) : Prop := r.name = host ∧ (type = r.type ∨ type = 255)

/-- Every answer received has the same lifetime, or is a goodbye. -/
def SameLife (host : Bytes) (type L : Nat) (h : List Call) : Prop :=
  ∀ k ∈ h, ∀ r ∈ k.1.told, r.answers host type → r.ttl = 0 ∨ r.ttl = L

/-- An answer is received only if there are known ones, or the question has not been asked yet, or
was asked in the last three seconds. -/
def Prompted (env : Env) (d : D Ptrs) (host : Bytes) (type : Nat) (h : List Call) : Prop :=
  ∀ h1 h2 now m src a d1, h = h1 ++ (.recv now m src, a) :: h2 → Calls env d h1 d1 →
    (∃ r ∈ (Op.recv now m src).told, r.answers host type ∧ r.ttl ≠ 0) →
    d1.c.listed host type ≠ [] ∨ askTimes host type h1 = [] ∨ ∃ l t, askTimes host type h1 = l ++ [t] ∧ now.sec < t + 3

/-! ### Proofs -/

theorem mem_listed_iff {c : Core} {host : Bytes} {type : Nat} {b : Answer} :
    b ∈ c.listed host type ↔ b ∈ c.rrs (bucket host lprime) ∧ b.is host type = true := by
  rw [listed_eq, List.mem_filter]

theorem Reach.listed_from {env : Env} {d d' : D Ptrs} {o : Op} {a : OpOut} (h : Reach env d) (hs : OpSafe env d.c d.q.walk o)
    (e : Mdns.step env o d = .ok (a, d')) {host : Bytes} {type : Nat} {b : Answer} (mb : b ∈ d'.c.listed host type) :
    b ∈ d.c.listed host type ∨ ∃ now m src, o = .recv now m src ∧
      ∃ r ∈ o.told, r.answers host type ∧ r.ttl ≠ 0 ∧ carries r b = true ∧ b.ttl = lease now r := by
  obtain ⟨mb, hb⟩ := mem_listed_iff.mp mb
  rcases h.entries hs e _ b mb with h1 | ⟨now, m, src, rfl, hq, r, mr, h0, hc, ht⟩
  · exact .inl (mem_listed_iff.mpr ⟨h1, hb⟩)
  · refine .inr ⟨now, m, src, rfl, r, ?_, ?_, h0, hc, ht⟩
    · show r ∈ if m.header.qr = true then m.an else []
      rw [if_pos hq]
      exact mr
    · obtain ⟨h1, h2⟩ := (is_iff _ _ _).mp hb
      unfold carries at hc
      simp only [Bool.and_eq_true, beq_iff_eq] at hc
      refine ⟨hc.1.1.symm.trans h1, ?_⟩
      rw [← hc.1.2]
      exact h2

/-- The times at which the known answers expire. -/
def Lives (c : Core) (host : Bytes) (type L T : Nat) : Prop :=
  ∀ b ∈ c.listed host type, 8 ≤ b.ttl ∧ b.ttl ≤ T + L / 2 + 8

theorem Later.lives {env : Env} {h : List Call} {d d' : D Ptrs} {T T' : Nat} (n : Later env d T h d' T') (hr : Reach env d)
    {host : Bytes} {type L : Nat} (h0 : Lives d.c host type L T) (hl : SameLife host type L h) : Lives d'.c host type L T' := by
  induction n with
  | nil => exact h0
  | @snoc h d1 d2 o a T1 T2 n hs e hT hle ih =>
    have ih := ih fun k m => hl k (by simp [m])
    intro b mb
    rcases (n.calls.reach' hr).listed_from hs e mb with m | ⟨now, m, src, rfl, r, mr, ha, h0, _, ht⟩
    · have := ih b m
      omega
    · have hL := (hl (.recv now m src, a) (by simp) r mr ha).resolve_left h0
      have hT : T2 = now.sec := hT
      rw [ht]
      unfold lease
      omega

theorem Timed.lives {env : Env} {h : List Call} {d : D Ptrs} {T : Nat} (n : Timed env h d T)
    {host : Bytes} {type L : Nat} (hl : SameLife host type L h) : Lives d.c host type L T := by
  obtain ⟨cls, frame, now, _, n⟩ := n
  refine n.lives (.new ..) (fun b mb => ?_) hl
  obtain ⟨mb, _⟩ := mem_listed_iff.mp mb
  cases mb

/-- The query is registered, and is asked for again in time. -/
inductive Renews (d : D Ptrs) (host : Bytes) (type L T : Nat) (asks : List Nat) (n k : Nat) : Prop
  /-- it rests -/
  | rest (h0 : k = 0) (hn : n ≤ T + L / 2 + 1) (hb : ∀ b ∈ d.c.listed host type, n ≠ 0 ∧ n ≤ max T (b.ttl - 7))
      (ha : (asks = [] ∧ n ≠ 0) ∨ ∃ l t, asks = l ++ [t] ∧ t + 3 ≤ T)
  /-- it is being asked -/
  | busy {l : List Nat} {t : Nat} (h1 : 1 ≤ k) (h3 : k ≤ 3) (ha : asks = l ++ [t]) (hn : n = t + k) (ht : t ≤ T)

theorem Reach.again_least {env : Env} {d d' : D Ptrs} {now : TV} {a : OpOut} (h : Reach env d)
    (hs : OpSafe env d.c d.q.walk (.send now)) (e : Mdns.step env (.send now) d = .ok (a, d')) {q : Nat} {x y : Query}
    (hx : d.c.qs q = some x) (h3 : x.tries = 3) (hy : d'.c.qs q = some y) (h0 : y.tries = 0)
    (h8 : ∀ b ∈ d.c.listed x.name x.type, 8 ≤ b.ttl) :
    ∀ b ∈ d'.c.listed x.name x.type, y.nexttry ≠ 0 ∧ y.nexttry ≤ b.ttl - 7 := by
  have hd := h.did hs e
  intro b mb
  obtain ⟨mb, hb⟩ := mem_listed_iff.mp mb
  generalize d'.c = c', d'.lists = l' at hd mb hy
  cases hd with
  | send n =>
    exact n.asking.again_least (c := { d.c with now := now }) hx h3 hy h0 (fun a ma ha => h8 a (mem_listed_iff.mpr ⟨ma, ha⟩)) b mb hb

/-- The answers known after a call that receives none were known before it. -/
theorem Reach.listed_send {env : Env} {d d' : D Ptrs} {now : TV} {a : OpOut} (h : Reach env d)
    (hs : OpSafe env d.c d.q.walk (.send now)) (e : Mdns.step env (.send now) d = .ok (a, d')) {host : Bytes} {type : Nat} :
    ∀ b ∈ d'.c.listed host type, b ∈ d.c.listed host type := by
  intro b mb
  rcases h.listed_from hs e mb with h | ⟨_, _, _, h, _⟩
  · exact h
  · cases h

theorem Later.renews {env : Env} {h : List Call} {d d' : D Ptrs} {T T' : Nat} (n : Later env d T h d' T') (hr : Reach env d)
    {host : Bytes} {type L : Nat} {evs : List Event} (h0 : Lives d.c host type L T) (hl : SameLife host type L h)
    (hp : Prompted env d host type h)
    (hq : ∃ q x, d.c.qs q = some x ∧ x.name = host ∧ x.type = type ∧ Renews d host type L T [] x.nexttry x.tries)
    (hlog : d'.c.log = d.c.log ++ evs) (hn : .unregistered host type ∉ evs) :
    ∃ q x, d'.c.qs q = some x ∧ x.name = host ∧ x.type = type ∧
      Renews d' host type L T' (askTimes host type h) x.nexttry x.tries := by
  induction n generalizing evs with
  | nil => exact hq
  | @snoc h d1 d2 o a T1 T2 n hs e hT hle ih =>
    have hr1 := n.calls.reach' hr
    obtain ⟨ev1, hl1⟩ := n.calls.log hr
    obtain ⟨ev2, hl2⟩ := (After.step .refl hs e).log hr1
    have hev : evs = ev1 ++ ev2 := by
      rw [hl2, hl1, List.append_assoc] at hlog
      exact (List.append_cancel_left hlog).symm
    subst hev
    have hl' : SameLife host type L h := fun k m => hl k (by simp [m])
    have hlv := n.lives hr h0 hl'
    obtain ⟨q, x, hx, rfl, rfl, ih⟩ := ih hl' (fun h1 h2 now m src a' d1 eh => hp h1 (h2 ++ [(o, a)]) now m src a' d1 (by rw [eh]; simp))
      hl1 fun m => hn (by simp [m])
    obtain ⟨ev3, y, hl3, hy, e1, e2, mv⟩ := hr1.move hs e hx
    rw [hl2] at hl3
    have := List.append_cancel_left hl3
    subst this
    rw [askTimes_snoc]
    have hy := hy.resolve_left fun m => hn (by simp [m])
    refine ⟨q, y, hy, e1, e2, ?_⟩
    have still : (∀ t, o = .send t → T2 = t.sec) → (∀ b ∈ d2.c.listed x.name x.type, b ∈ d1.c.listed x.name x.type ∨
        (x.tries = 0 → x.nexttry ≠ 0 ∧ x.nexttry ≤ max T2 (b.ttl - 7))) →
        Renews d2 x.name x.type L T2 (askTimes x.name x.type h) x.nexttry x.tries := by
      intro _ hb'
      cases ih with
      | rest h0 hn hb ha =>
        refine .rest h0 (by omega) (fun b mb => ?_) (ha.imp_right fun ⟨l, t, h1, h2⟩ => ⟨l, t, h1, by omega⟩)
        rcases hb' b mb with m | h
        · have := hb b m
          omega
        · exact h h0
      | busy h1 h3 ha hn ht => exact .busy h1 h3 ha hn (by omega)
    rcases mv with ⟨h1, h2, h3, hns⟩ | ⟨t, ret, m, to, rfl, rfl, mv⟩
    · rw [h1, h2, h3]
      simp only [Option.toList_none, List.append_nil]
      refine still (fun t e => absurd e (hns t)) fun b mb => ?_
      rcases hr1.listed_from hs e mb with m | ⟨now, m, src, rfl, r, mr, ha, hr0, _, ht⟩
      · exact .inl m
      · refine .inr fun hx0 => ?_
        have hL := (hl (.recv now m src, a) (by simp) r mr ha).resolve_left hr0
        have hT : T2 = now.sec := hT
        have hpr := hp h [] now m src a d1 rfl n.calls ⟨r, mr, ha, hr0⟩
        cases ih with
        | busy h1 => omega
        | rest h0 hn hb ha =>
          refine ⟨?_, by rw [ht]; unfold lease; omega⟩
          rcases hpr with hpr | hpr | ⟨l, t, hpr, hlt⟩
          · cases hc : d1.c.listed x.name x.type with
            | nil => exact absurd hc hpr
            | cons b' l => exact (hb b' (by rw [hc]; simp)).1
          · rcases ha with ha | ⟨l, t, ha, _⟩
            · exact ha.2
            · rw [hpr] at ha
              exact absurd ha.symm (by simp)
          · rcases ha with ha | ⟨l', t', ha, hle'⟩
            · exact ha.2
            · rw [hpr] at ha
              have := (List.append_inj' ha rfl).2
              cases this
              omega
    · have hT : T2 = t.sec := hT
      have sub := hr1.listed_send (host := x.name) (type := x.type) hs e
      show Renews d2 x.name x.type L T2 (_ ++ (if m.asks x.name x.type = true then some t.sec else none).toList) _ _
      have still := still (fun t' e => by cases e; exact hT) fun b mb => .inl (sub b mb)
      have again := hr1.again_least (y := y) hs e hx
      generalize m.asks x.name x.type = b at mv
      cases mv with
      | same h1 h2 _ =>
        rw [h1, h2]
        simpa using still
      | turn ht _ =>
        have again := fun h3 h0 => again h3 hy h0 fun b mb => (hlv b mb).1
        generalize x.nexttry = n, x.tries = k, y.nexttry = n', y.tries = k' at *
        cases ht with
        | idle _ => simpa using still
        | ask hn h3 =>
          refine .busy (l := askTimes x.name x.type h) (t := t.sec) (by omega) ?_ (by simp) rfl (by omega)
          cases ih with
          | rest h0 => omega
          | busy _ h => omega
        | again hn h' =>
          have again := again rfl rfl
          have hnow : ({ d1.c with now := t } : Core).now.sec = t.sec := rfl
          rw [hnow] at hn
          cases ih with
          | rest h0 => omega
          | @busy l t0 _ _ ha hn' _ =>
            refine .rest rfl ?_ (fun b mb => ?_) (.inr ⟨l, t0, by simpa using ha, by omega⟩)
            · rcases h' with rfl | ⟨b, mb, hb, _, rfl⟩
              · omega
              · have := hlv b (mem_listed_iff.mpr ⟨mb, hb⟩)
                unfold sub7
                split <;> omega
            · have := again b mb
              omega

/-- A query is made that was not there. -/
theorem Reach.registers {env : Env} {d d1 : D Ptrs} {host : Bytes} {type cb : Nat} {a : OpOut} (h : Reach env d)
    (hn : callback d.c.log host type = none) (e : Mdns.step env (.query host type (some cb)) d = .ok (a, d1)) :
    ∃ q x, d1.c.qs q = some x ∧ x.name = host ∧ x.type = type ∧ x.nexttry = d.c.now.sec ∧ x.tries = 0 := by
  have hs : OpSafe env d.c d.q.walk (.query host type (some cb)) := trivial
  have hd := h.did hs e
  have hi1 := (h.step hs e).inv.cinv
  have hi := h.inv.cinv
  generalize d1.c = c', d1.lists = l' at hd hi1
  cases hd with
  | query e1 _ =>
    obtain ⟨c1, e2, rg, hl⟩ := hi.queryOn host type cb
    rw [e1] at e2
    cases e2
    have : callback c'.log host type = some cb := by rw [hl, callback_append_registered, if_pos ⟨rfl, rfl⟩]
    obtain ⟨q, x, hx, e3, e4, _⟩ := (hi1.tcb host type cb).mp this
    refine ⟨q, x, hx, e3, e4, ?_⟩
    rcases rg.new q x hx with ⟨cb', h1⟩ | ⟨_, _, h1, h2, _⟩
    · have := (hi.tcb host type cb').mpr ⟨q, _, h1, e3, e4, rfl⟩
      rw [hn] at this
      cases this
    · exact ⟨h1, h2⟩

/-- A call of `mdnsd_out` that returns that there is nothing to send finds the query not due, or
asked three times. -/
theorem Reach.idle {env : Env} {d d' : D Ptrs} {T : Nat} (h : Reach env d) (hp : Timely T d.c) (hsd : d.c.shutdown = false)
    {now : TV} {m : Out} {to : Addr} (hs : OpSafe env d.c d.q.walk (.send now)) (hT : T ≤ now.sec)
    (e : Mdns.step env (.send now) d = .ok (.sent 0 m to, d')) {q : Nat} {x : Query} (hx : d.c.qs q = some x) :
    m.asks x.name x.type = false ∧ ((∃ y, (Event.unregistered x.name x.type ∈ d'.c.log.drop d.c.log.length ∨ d'.c.qs q = some y) ∧
      y.name = x.name ∧ y.type = x.type ∧ y.nexttry = x.nexttry ∧ y.tries = x.tries ∧ (x.nexttry = 0 ∨ now.sec < x.nexttry)) ∨
    (x.tries = 3 ∧ x.nexttry ≤ now.sec ∧ ∃ y, (Event.unregistered x.name x.type ∈ d'.c.log.drop d.c.log.length ∨ d'.c.qs q = some y) ∧
      y.name = x.name ∧ y.type = x.type ∧ y.tries = 0)) := by
  have wake : ¬ (d.c.checkqlist ≠ 0 ∧ now.sec ≥ d.c.checkqlist) → x.nexttry = 0 ∨ now.sec < x.nexttry := by
    intro h
    by_cases hz : x.nexttry = 0
    · exact .inl hz
    · obtain ⟨h1, h2⟩ := hp q x hx (by omega)
      omega
  obtain ⟨evs, y, hl, hy, en, et, ⟨_, _, _, h⟩ | ⟨t, ret, m, to, ht, ha, mv⟩⟩ := h.move hs e hx
  · exact absurd rfl (h now)
  · rw [show d'.c.log.drop d.c.log.length = evs by rw [hl, List.drop_left]]
    cases ht
    cases ha
    generalize m.asks x.name x.type = b at mv ⊢
    cases mv with
    | turn h hb =>
      generalize hxn : x.nexttry = nt, hxk : x.tries = k, hyn : y.nexttry = nt', hyk : y.tries = k' at h
      cases h with
      | idle h => exact ⟨rfl, .inl ⟨y, hy, en, et, hyn, hyk, h⟩⟩
      | ask _ _ => exact absurd (hb rfl) (by simp)
      | again h _ =>
        have h : ¬ (nt = 0 ∨ now.sec < nt) := h
        exact ⟨rfl, .inr ⟨rfl, by omega, y, hy, en, et, hyk⟩⟩
    | same h1 h2 h =>
      rcases h rfl with h | h
      · rw [show d.c.shutdown = true from h] at hsd
        cases hsd
      · exact ⟨rfl, .inl ⟨y, hy, en, et, h1, h2, wake h⟩⟩

/-- C83: while a query is registered, its known answers are asked for again before they expire:
whenever `mdnsd_out` finds twice in a row that there is nothing to send, the question has been asked
within the last three seconds if the remaining time of a known answer is seven seconds or less. The
clock must not be set back, and the daemon not be shut down. This holds if the lifetimes in the
received answers are all the same, and no answer is received after the question has been asked for
the third time and three seconds have passed without one: see `C83_late_counterexample` and
`C83_shorter_counterexample` for what happens otherwise. -/
theorem C83_again_partial {env : Env} {d d1 d2 d3 d4 : D Ptrs} {host : Bytes} {type cb L : Nat} {a : OpOut} {pre post : List Call}
    {evs : List Event} {T0 T : Nat} (hr : Timed env pre d T0) (hnew : callback d.c.log host type = none)
    (e : Mdns.step env (.query host type (some cb)) d = .ok (a, d1)) (n : Later env d1 T0 post d2 T)
    (hlife : SameLife host type L (pre ++ post)) (hpr : Prompted env d1 host type post)
    {now now' : TV} {m m' : Out} {to to' : Addr} (hT : T ≤ now.sec) (hT' : now.sec ≤ now'.sec)
    (hs : OpSafe env d2.c d2.q.walk (.send now)) (e3 : Mdns.step env (.send now) d2 = .ok (.sent 0 m to, d3))
    (hs' : OpSafe env d3.c d3.q.walk (.send now')) (e4 : Mdns.step env (.send now') d3 = .ok (.sent 0 m' to', d4))
    (hsd : d2.c.shutdown = false) (hsd' : d3.c.shutdown = false)
    (hl : d3.c.log = d1.c.log ++ evs) (hreg : .unregistered host type ∉ evs)
    {b : Answer} (mb : b ∈ d3.c.listed host type) (hb : b.ttl ≤ now.sec + 7) :
    ∃ l t, askTimes host type post = l ++ [t] ∧ now.sec < t + 3 := by
  have hs1 : OpSafe env d.c d.q.walk (.query host type (some cb)) := trivial
  have hr1 : Reach env d1 := hr.reach.step hs1 e
  have hr2 := n.calls.reach' hr1
  have hr3 := hr2.step hs e3
  have p0 := hr.punctual
  have p1 : Punctual d1 T0 := (Later.snoc .nil hs1 e rfl (Nat.le_refl _)).punctual hr.reach p0
  have p2 := n.punctual hr1 p1
  have n3 : Later env d1 T0 (post ++ [(.send now, .sent 0 m to)]) d3 now.sec := .snoc n hs e3 rfl hT
  have p3 := n3.punctual hr1 p1
  obtain ⟨ev1, hl1⟩ := n.calls.log hr1
  obtain ⟨ev2, hl2⟩ := (After.step .refl hs e3).log hr2
  have hev : evs = ev1 ++ ev2 := by
    rw [hl2, hl1, List.append_assoc] at hl
    exact (List.append_cancel_left hl).symm
  have hlife1 : SameLife host type L pre := fun k mk => hlife k (by simp [mk])
  have hlife2 : SameLife host type L post := fun k mk => hlife k (by simp [mk])
  have hlife3 : SameLife host type L (post ++ [(.send now, .sent 0 m to)]) := by
    intro k mk
    rcases List.mem_append.mp mk with mk | mk
    · exact hlife2 k mk
    · rw [List.mem_singleton] at mk
      subst mk
      intro r mr
      cases mr
  have hpr3 : Prompted env d1 host type (post ++ [(.send now, .sent 0 m to)]) := by
    intro h1 h2 now' m' src a' dm eh
    rcases List.eq_nil_or_concat h2 with rfl | ⟨h3, k, rfl⟩
    · have := (List.append_inj' eh rfl).2
      cases this
    · rw [List.concat_eq_append, ← List.cons_append, ← List.append_assoc] at eh
      exact hpr h1 h3 now' m' src a' dm (List.append_inj' eh rfl).1
  have hlv1 : Lives d1.c host type L T0 :=
    (Later.snoc .nil hs1 e rfl (Nat.le_refl _)).lives hr.reach (hr.lives hlife1) (by
      intro k mk
      rw [List.nil_append, List.mem_singleton] at mk
      subst mk
      intro r mr
      cases mr)
  have start : ∃ q x, d1.c.qs q = some x ∧ x.name = host ∧ x.type = type ∧ Renews d1 host type L T0 [] x.nexttry x.tries := by
    obtain ⟨q, x, hx, h1, h2, h3, h4⟩ := hr.reach.registers hnew e
    have := p0.1
    have := p0.2.1
    exact ⟨q, x, hx, h1, h2, .rest h4 (by omega) (fun b mb => by omega) (.inl ⟨rfl, by omega⟩)⟩
  have r2 := n.renews hr1 hlv1 hlife2 hpr start hl1 (by rw [hev] at hreg; exact fun m => hreg (by simp [m]))
  have r3 := n3.renews hr1 hlv1 hlife3 hpr3 start hl hreg
  obtain ⟨q2, x, hx2, n2, t2, _⟩ := r2
  obtain ⟨q, y, hy, n3', t3, r3⟩ := r3
  rw [askTimes_snoc] at r3
  obtain ⟨hno, i2⟩ := hr2.idle p2.2.2 hsd hs hT e3 hx2
  have i3 := (hr3.idle p3.2.2 hsd' hs' hT' e4 hy).2
  have hnone : Call.askTime host type (.send now, .sent 0 m to) = none := by
    show (if m.asks host type = true then some now.sec else none) = none
    rw [← n2, ← t2, hno]
    rfl
  rw [hnone] at r3
  simp only [Option.toList_none, List.append_nil] at r3
  have hdrop : Event.unregistered x.name x.type ∉ d3.c.log.drop d2.c.log.length := by
    rw [hl2, List.drop_left, n2, t2]
    exact fun m => hreg (by rw [hev]; simp [m])
  have same : ∀ z, d3.c.qs q2 = some z → z.name = x.name → z.type = x.type → z.nexttry = y.nexttry ∧ z.tries = y.tries := by
    intro z hz h1 h2
    have := hr3.inv.cinv.quniq q2 q z y hz hy (by rw [h1, n2, n3']) (by rw [h2, t2, t3])
    subst this
    rw [hz] at hy
    cases hy
    exact ⟨rfl, rfl⟩
  cases r3 with
  | rest h0 hn hb' _ =>
    have := hb' b mb
    clear i2 start
    rcases i3 with ⟨_, _, _, _, _, _, h⟩ | ⟨h, _⟩ <;> omega
  | @busy l t h1 h3 ha hn ht =>
    refine ⟨l, t, ha, ?_⟩
    rcases i2 with ⟨z, hz, en, et, hzn, hzk, hi⟩ | ⟨_, _, z, hz, en, et, hzk⟩
    · have := same z (hz.resolve_left hdrop) en et
      omega
    · have := same z (hz.resolve_left hdrop) en et
      omega

/-! ### Samples -/

namespace Sample

/-- The latest time in a list of calls, if the clock is not set back. -/
def clockB : List Op → Nat → Option Nat
  | [], T => some T
  | o :: ops, T => match o.clock with
    | some t => if T ≤ t.sec then clockB ops t.sec else none
    | none => clockB ops T

theorem later_was {env : Env} (hk : env.KeepOnExpiry) : ∀ (ops : List Op) {d : D Ptrs} {T T' : Nat}, safeRunB env d ops = true →
    clockB ops T = some T' → ∀ (h : List Call) (d0 : D Ptrs) (T0 : Nat), Later env d0 T0 h d T →
      Later env d0 T0 (h ++ (trace env ops d).1) (trace env ops d).2 T'
  | [], d, T, T', _, hc, h, d0, T0, n => by
    cases hc
    simpa [trace] using n
  | o :: rest, d, T, T', hb, hc, h, d0, T0, n => by
    unfold safeRunB at hb
    rw [Bool.and_eq_true] at hb
    unfold trace
    cases e : Mdns.step env o d with
    | ok p =>
      have h2 := hb.2
      rw [e] at h2
      unfold clockB at hc
      cases ho : o.clock with
      | some t =>
        rw [ho] at hc
        simp only at hc
        split at hc
        · rename_i hle
          have := later_was hk rest h2 hc _ _ _ (Later.snoc n (opSafeB_sound hk hb.1) e (T' := t.sec) (by rw [ho]) hle)
          simpa using this
        · cases hc
      | none =>
        rw [ho] at hc
        have := later_was hk rest h2 hc _ _ _ (Later.snoc n (opSafeB_sound hk hb.1) e (T' := T) (by rw [ho]) (Nat.le_refl _))
        simpa using this
    | ub => rw [e] at hb; cases hb.2
    | hang => rw [e] at hb; cases hb.2

theorem later_in {ops : List Op} {d : D Ptrs} {T T' : Nat} (h : safeRunB quiet d ops = true) (hc : clockB ops T = some T') :
    Later quiet d T (trace quiet ops d).1 (trace quiet ops d).2 T' := by
  simpa using later_was quiet_keeps ops h hc [] d T .nil

/-- Whether every answer comes when it should. -/
def promptedB (host : Bytes) (type : Nat) : List Op → D Ptrs → List Nat → Bool
  | [], _, _ => true
  | o :: ops, d, asks =>
    (match o with
      | .recv now _ _ => (o.told.all fun r => !(decide (r.name = host ∧ (type = r.type ∨ type = 255)) && r.ttl != 0)) ||
          !(d.c.listed host type).isEmpty || asks.isEmpty || (match asks.getLast? with | some t => decide (now.sec < t + 3) | none => false)
      | _ => true) &&
    match Mdns.step quiet o d with
    | .ok (a, d') => promptedB host type ops d' (asks ++ (Call.askTime host type (o, a)).toList)
    | _ => true

theorem Calls.uncons {env : Env} {d d' : D Ptrs} {k : Call} {h : List Call} (n : Calls env d (k :: h) d') :
    ∃ d1, Mdns.step env k.1 d = .ok (k.2, d1) ∧ Calls env d1 h d' := by
  obtain ⟨d1, n1, n2⟩ := Calls.split (pre := [k]) n
  generalize e : [k] = l at n1
  cases n1 with
  | nil => cases e
  | @snoc h' _ _ o a n3 hs e1 =>
    have : h' = [] ∧ k = (o, a) := by
      cases h' with
      | nil => cases e; exact ⟨rfl, rfl⟩
      | cons x l => exact absurd (congrArg List.length e) (by simp)
    obtain ⟨rfl, rfl⟩ := this
    generalize el : ([] : List Call) = l at n3
    cases n3 with
    | nil => exact ⟨_, e1, n2⟩
    | snoc => exact absurd el (by simp)

theorem prompted_was {host : Bytes} {type : Nat} : ∀ (ops : List Op) {d : D Ptrs} {asks : List Nat},
    promptedB host type ops d asks = true → ∀ h1 h2 now m src a d1, (trace quiet ops d).1 = h1 ++ (.recv now m src, a) :: h2 →
      Calls quiet d h1 d1 → (∃ r ∈ (Op.recv now m src).told, r.answers host type ∧ r.ttl ≠ 0) →
      d1.c.listed host type ≠ [] ∨ asks ++ askTimes host type h1 = [] ∨
        ∃ l t, asks ++ askTimes host type h1 = l ++ [t] ∧ now.sec < t + 3
  | [], d, asks, _, h1, h2, now, m, src, a, d1, eh, _, _ => by
    exact absurd eh (by simp [trace])
  | o :: ops, d, asks, hp, h1, h2, now, m, src, a, d1, eh, n, hr => by
    unfold promptedB at hp
    rw [Bool.and_eq_true] at hp
    unfold trace at eh
    cases e : Mdns.step quiet o d with
    | ok p =>
      rw [e] at hp eh
      simp only at hp eh
      cases h1 with
      | nil =>
        rw [List.nil_append, List.cons.injEq] at eh
        obtain ⟨eo, _⟩ := eh
        cases eo
        have hd : d1 = d := by
          generalize el : ([] : List Call) = l at n
          cases n with
          | nil => rfl
          | snoc => exact absurd el (by simp)
        subst hd
        obtain ⟨r, mr, ha, h0⟩ := hr
        have := hp.1
        simp only [Bool.or_eq_true] at this
        simp only [askTimes, List.filterMap_nil, List.append_nil]
        rcases this with ((h | h) | h) | h
        · exfalso
          have := List.all_eq_true.mp h r mr
          simp only [Bool.not_eq_true', Bool.and_eq_false_iff, decide_eq_false_iff_not, bne_eq_false_iff_eq] at this
          exact this.elim (fun h => h ha) h0
        · refine .inl fun hn => ?_
          rw [hn] at h
          cases h
        · exact .inr (.inl (List.isEmpty_iff.mp h))
        · refine .inr (.inr ?_)
          split at h
          · rename_i t ht
            obtain ⟨l, rfl⟩ := List.getLast?_eq_some_iff.mp ht
            exact ⟨l, t, rfl, of_decide_eq_true h⟩
          · cases h
      | cons k h1 =>
        rw [List.cons_append, List.cons.injEq] at eh
        obtain ⟨eo, eh⟩ := eh
        subst eo
        obtain ⟨d', e', n⟩ := Calls.uncons n
        rw [e] at e'
        have : p.2 = d' := by injection e' with h; exact congrArg Prod.snd h
        subst this
        have := prompted_was ops hp.2 h1 h2 now m src a d1 eh n hr
        have ht : askTimes host type ((o, p.1) :: h1) = (Call.askTime host type (o, p.1)).toList ++ askTimes host type h1 := by
          unfold askTimes
          cases e : Call.askTime host type (o, p.1) <;> simp [e]
        rw [ht, ← List.append_assoc]
        exact this
    | ub => rw [e] at eh; exact absurd eh (by simp)
    | hang => rw [e] at eh; exact absurd eh (by simp)

theorem prompted_in {host : Bytes} {type : Nat} {ops : List Op} {d : D Ptrs} (h : promptedB host type ops d [] = true) :
    Prompted quiet d host type (trace quiet ops d).1 := fun h1 h2 now m src a d1 eh n hr => by
  simpa using prompted_was ops h h1 h2 now m src a d1 eh n hr

/-- A record is received at once, with a lifetime of twenty seconds. -/
def renewing : List Op := [.send (at_ 100), .recv (at_ 100) { ptrMsg 10 with an := [ptrTo 98 1 20] } other, .send (at_ 101),
  .send (at_ 103), .send (at_ 106), .send (at_ 111)]

/-- A record is received after no one answered, again and again. -/
def late : List Op := [.send (at_ 100), .send (at_ 101), .send (at_ 103), .send (at_ 106),
  .recv (at_ 110) { ptrMsg 10 with an := [ptrTo 98 1 20] } other, .send (at_ 111),
  .recv (at_ 120) { ptrMsg 10 with an := [ptrTo 98 1 20] } other, .send (at_ 121)]

/-- One record is received with a long lifetime, and then another with a short one. -/
def shorter : List Op := [.send (at_ 100), .recv (at_ 100) { ptrMsg 10 with an := [ptrTo 98 1 100] } other, .send (at_ 101),
  .send (at_ 103), .send (at_ 106), .recv (at_ 110) { ptrMsg 10 with an := [ptrTo 99 1 10] } other]

/-- What is needed for the theorem and can be computed: after the calls, `mdnsd_out` finds twice that
there is nothing to send, and an answer that is about to expire is known. -/
structure Idle (ops : List Op) (t : Nat) (asks : List Nat) : Prop where
  safe : safeRunB quiet asking1 ops = true
  clock : ∃ T, clockB ops 100 = some T ∧ T ≤ t
  ret : (packetAt (at_ t) (trace quiet ops asking1).2).map (·.1) = some 0
  ret' : (packetAt (at_ t) (trace quiet (ops ++ [.send (at_ t)]) asking1).2).map (·.1) = some 0
  up : (trace quiet ops asking1).2.c.shutdown = false ∧ (trace quiet (ops ++ [.send (at_ t)]) asking1).2.c.shutdown = false
  log : Event.unregistered (nm 97) 12 ∉ (trace quiet (ops ++ [.send (at_ t)]) asking1).2.c.log
  known : ∃ b ∈ (trace quiet (ops ++ [.send (at_ t)]) asking1).2.c.listed (nm 97) 12, b.ttl ≤ t + 7
  asked : askTimes (nm 97) 12 (trace quiet ops asking1).1 = asks

theorem trace_snoc {env : Env} {o : Op} : ∀ (ops : List Op) {d : D Ptrs} {a : OpOut} {d' : D Ptrs}, safeRunB env d ops = true →
    Mdns.step env o (trace env ops d).2 = .ok (a, d') → (trace env (ops ++ [o]) d).2 = d'
  | [], d, a, d', _, e => by
    have e : Mdns.step env o d = .ok (a, d') := e
    show (match Mdns.step env o d with | .ok (a, d') => ((o, a) :: (trace env [] d').1, (trace env [] d').2) | _ => ([], d)).2 = d'
    rw [e]
    rfl
  | o' :: ops, d, a, d', hb, e => by
    unfold safeRunB at hb
    rw [Bool.and_eq_true] at hb
    unfold trace at e
    rw [List.cons_append]
    unfold trace
    cases e1 : Mdns.step env o' d with
    | ok p =>
      have h2 := hb.2
      rw [e1] at h2 e
      exact trace_snoc ops h2 e
    | ub => rw [e1] at hb; cases hb.2
    | hang => rw [e1] at hb; cases hb.2

end Sample

open Sample in
/-- The hypotheses of `C83_again_partial` but for those about the answers. -/
theorem Sample.idle_of {ops : List Op} {t : Nat} {asks : List Nat} (h : Idle ops t asks) :
    ∃ a d1 d2 d3 d4 T m to m' to' evs b, Timed quiet [] fresh 100 ∧ callback fresh.c.log (nm 97) 12 = none ∧
      Mdns.step quiet (.query (nm 97) 12 (some 7)) fresh = .ok (a, d1) ∧ d1 = asking1 ∧
      Later quiet d1 100 (trace quiet ops asking1).1 d2 T ∧ T ≤ t ∧ OpSafe quiet d2.c d2.q.walk (.send (at_ t)) ∧
      Mdns.step quiet (.send (at_ t)) d2 = .ok (.sent 0 m to, d3) ∧ OpSafe quiet d3.c d3.q.walk (.send (at_ t)) ∧
      Mdns.step quiet (.send (at_ t)) d3 = .ok (.sent 0 m' to', d4) ∧ d2.c.shutdown = false ∧ d3.c.shutdown = false ∧
      d3.c.log = d1.c.log ++ evs ∧ .unregistered (nm 97) 12 ∉ evs ∧ b ∈ d3.c.listed (nm 97) 12 ∧ b.ttl ≤ t + 7 := by
  obtain ⟨a, e1⟩ := asking1_step
  obtain ⟨T, hc, hT⟩ := h.clock
  have n := later_in h.safe hc
  have hr1 : Reach quiet asking1 := (Reach.new ..).step (o := .query (nm 97) 12 (some 7)) trivial e1
  have hr2 := n.calls.reach' hr1
  obtain ⟨ret, m, to, d3, e3, hs, hp⟩ := packet_of hr2 (at_ t)
  have h3 := trace_snoc ops h.safe e3
  have hr3 := hr2.step hs e3
  obtain ⟨ret', m', to', d4, e4, hs', hp'⟩ := packet_of hr3 (at_ t)
  have r1 := h.ret
  rw [hp] at r1
  cases r1
  have r2 := h.ret'
  rw [h3, hp'] at r2
  cases r2
  obtain ⟨ev, hl⟩ := (n.snoc hs e3 (T' := t) rfl hT).calls.log hr1
  obtain ⟨b, mb, hb⟩ := h.known
  have up := h.up
  have hlog := h.log
  rw [h3] at up mb hlog
  exact ⟨a, asking1, _, d3, d4, T, m, to, m', to', ev, b, ⟨1, 1500, at_ 100, by decide, .nil⟩, by decide +kernel, e1, rfl, n, hT, hs, e3,
    hs', e4, up.1, up.2, hl, fun m => hlog (by rw [hl]; simp [m]), mb, hb⟩

open Sample in
/-- C83: a record with a lifetime of twenty seconds is asked for again after eleven. -/
example : ∃ a d d1 d2 d3 d4 T m to m' to' evs b post, Timed quiet [] d 100 ∧ callback d.c.log (nm 97) 12 = none ∧
      Mdns.step quiet (.query (nm 97) 12 (some 7)) d = .ok (a, d1) ∧ Later quiet d1 100 post d2 T ∧ T ≤ 111 ∧
      SameLife (nm 97) 12 20 ([] ++ post) ∧ Prompted quiet d1 (nm 97) 12 post ∧
      OpSafe quiet d2.c d2.q.walk (.send (at_ 111)) ∧ Mdns.step quiet (.send (at_ 111)) d2 = .ok (.sent 0 m to, d3) ∧
      OpSafe quiet d3.c d3.q.walk (.send (at_ 111)) ∧ Mdns.step quiet (.send (at_ 111)) d3 = .ok (.sent 0 m' to', d4) ∧
      d2.c.shutdown = false ∧ d3.c.shutdown = false ∧ d3.c.log = d1.c.log ++ evs ∧ .unregistered (nm 97) 12 ∉ evs ∧
      b ∈ d3.c.listed (nm 97) 12 ∧ b.ttl ≤ 111 + 7 ∧
      askTimes (nm 97) 12 post = [100, 101, 103, 111] := by
  obtain ⟨a, d1, d2, d3, d4, T, m, to, m', to', evs, b, h1, h2, h3, rfl, h4, h5, h6, h7, h8, h9, h10, h11, h12, h13, h14, h15⟩ :=
    idle_of (ops := renewing) (t := 111) (asks := [100, 101, 103, 111]) (by
      refine ⟨by decide +kernel, ⟨111, by decide +kernel, by decide⟩, by decide +kernel, by decide +kernel, by decide +kernel, by decide +kernel,
        by decide +kernel, by decide +kernel⟩)
  exact ⟨a, fresh, _, d2, d3, d4, T, m, to, m', to', evs, b, _, h1, h2, h3, h4, h5, by unfold SameLife Resource.answers; decide +kernel,
    prompted_in (by decide +kernel), h6, h7, h8, h9, h10, h11, h12, h13, h14, h15, by decide +kernel⟩

open Sample in
/-- C83: a record that is received when the question has been asked for the third time and three
seconds have passed is never asked for: the query has no next time any more
(`libmdnsd/mdnsd.c:375-390`, called at `1426`), and a record that arrives does not give it one. Here the
record is received twice, and about to expire. -/
theorem C83_late_counterexample : ∃ a d d1 d2 d3 d4 T m to m' to' evs b post, Timed quiet [] d 100 ∧ callback d.c.log (nm 97) 12 = none ∧
      Mdns.step quiet (.query (nm 97) 12 (some 7)) d = .ok (a, d1) ∧ Later quiet d1 100 post d2 T ∧ T ≤ 137 ∧
      SameLife (nm 97) 12 20 ([] ++ post) ∧
      OpSafe quiet d2.c d2.q.walk (.send (at_ 137)) ∧ Mdns.step quiet (.send (at_ 137)) d2 = .ok (.sent 0 m to, d3) ∧
      OpSafe quiet d3.c d3.q.walk (.send (at_ 137)) ∧ Mdns.step quiet (.send (at_ 137)) d3 = .ok (.sent 0 m' to', d4) ∧
      d2.c.shutdown = false ∧ d3.c.shutdown = false ∧ d3.c.log = d1.c.log ++ evs ∧ .unregistered (nm 97) 12 ∉ evs ∧
      b ∈ d3.c.listed (nm 97) 12 ∧ b.ttl ≤ 137 + 7 ∧
      askTimes (nm 97) 12 post = [100, 101, 103] := by
  obtain ⟨a, d1, d2, d3, d4, T, m, to, m', to', evs, b, h1, h2, h3, rfl, h4, h5, h6, h7, h8, h9, h10, h11, h12, h13, h14, h15⟩ :=
    idle_of (ops := late) (t := 137) (asks := [100, 101, 103]) (by
      refine ⟨by decide +kernel, ⟨121, by decide +kernel, by decide⟩, by decide +kernel, by decide +kernel, by decide +kernel, by decide +kernel,
        by decide +kernel, by decide +kernel⟩)
  exact ⟨a, fresh, _, d2, d3, d4, T, m, to, m', to', evs, b, _, h1, h2, h3, h4, h5, by unfold SameLife Resource.answers; decide +kernel,
    h6, h7, h8, h9, h10, h11, h12, h13, h14, h15, by decide +kernel⟩

open Sample in
/-- C83: a record with a shorter lifetime than the one that is known is not asked for in time: the
question is asked again when the known one is about to expire. -/
theorem C83_shorter_counterexample : ∃ a d d1 d2 d3 d4 T m to m' to' evs b post, Timed quiet [] d 100 ∧ callback d.c.log (nm 97) 12 = none ∧
      Mdns.step quiet (.query (nm 97) 12 (some 7)) d = .ok (a, d1) ∧ Later quiet d1 100 post d2 T ∧ T ≤ 122 ∧
      Prompted quiet d1 (nm 97) 12 post ∧
      OpSafe quiet d2.c d2.q.walk (.send (at_ 122)) ∧ Mdns.step quiet (.send (at_ 122)) d2 = .ok (.sent 0 m to, d3) ∧
      OpSafe quiet d3.c d3.q.walk (.send (at_ 122)) ∧ Mdns.step quiet (.send (at_ 122)) d3 = .ok (.sent 0 m' to', d4) ∧
      d2.c.shutdown = false ∧ d3.c.shutdown = false ∧ d3.c.log = d1.c.log ++ evs ∧ .unregistered (nm 97) 12 ∉ evs ∧
      b ∈ d3.c.listed (nm 97) 12 ∧ b.ttl ≤ 122 + 7 ∧
      askTimes (nm 97) 12 post = [100, 101, 103] := by
  obtain ⟨a, d1, d2, d3, d4, T, m, to, m', to', evs, b, h1, h2, h3, rfl, h4, h5, h6, h7, h8, h9, h10, h11, h12, h13, h14, h15⟩ :=
    idle_of (ops := shorter) (t := 122) (asks := [100, 101, 103]) (by
      refine ⟨by decide +kernel, ⟨110, by decide +kernel, by decide⟩, by decide +kernel, by decide +kernel, by decide +kernel, by decide +kernel,
        by decide +kernel, by decide +kernel⟩)
  exact ⟨a, fresh, _, d2, d3, d4, T, m, to, m', to', evs, b, _, h1, h2, h3, h4, h5, prompted_in (by decide +kernel),
    h6, h7, h8, h9, h10, h11, h12, h13, h14, h15, by decide +kernel⟩

end Mdns
