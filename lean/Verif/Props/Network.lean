import Verif.Props.Bounded
import Verif.Props.Questions
import Verif.Props.Finding

/-! C78: daemons that hear each other do not keep each other talking. -/

namespace Mdns

/-! ### Specification -/

/-- The packets with records one call may make a daemon send that it would not have sent anyway: a
response received none, a query one for every record it asks for, and from a port other than 5353
one more for every question about a record; asking for the time to wait one for every record. -/
def incited (c : Core) : Op → Nat
  | .recv _ m src => if m.header.qr then 0 else
      (namedBy c m).length + (if src.port = 5353 then 0 else (m.qd.filter (meant c)).length)
  | .sleep _ => c.allPublished.length
  | _ => 0

namespace Network

/-- A daemon on the network: what was done with it before, and what it does from then on. -/
structure Host where
  env : Env
  past : List Call
  start : D Ptrs
  run : List Call
  stop : D Ptrs

/-- The daemon is made, and from some time on only `mdnsd_step` is called. -/
structure Host.Runs (a : Host) : Prop where
  hist : Hist a.env a.past a.start
  calls : Calls a.env a.start a.run a.stop
  step : ∀ k ∈ a.run, k.1.ofStep = true

/-- The records the daemon has. -/
def Host.records (a : Host) : Nat := a.start.c.allPublished.length

/-- The queries the daemon sends. -/
def Host.queries (a : Host) : Nat := ((packetsOf a.run).filter fun p => !p.1.qr).length

/-- The packets with records it sends. -/
def Host.sends (a : Host) : Nat := bearing (packetsOf a.run)

/-- How often it asks for the time to wait. -/
def Host.sleeps (a : Host) : Nat := (a.run.filter fun k => match k.1 with | .sleep _ => true | _ => false).length

/-- Call number `k` of the daemon receives a query. -/
def Host.hears (a : Host) (k : Nat) : Prop :=
  ∃ now g src o, a.run[k]? = some (.recv now g src, o) ∧ g.header.qr = false

/-- Call number `k` of `b` receives the packet made by call number `p` of `a`. -/
def Passed (a : Host) (p : Nat) (b : Host) (k : Nat) : Prop :=
  ∃ t ret m to now g src o buf, a.run[p]? = some (.send t, .sent ret m to) ∧ ret ≠ 0 ∧
    Holds buf (messagePacket m.builder) ∧ messageParse buf structCap = .ok g ∧
    b.run[k]? = some (.recv now g src, o)

/-- The queries a daemon hears are packets of the other ones, each at most once.  Packets may be
lost, late, and in any order, and responses may be of anyone and any number. -/
def Wired (hosts : List Host) : Prop :=
  ∀ (j : Nat) (b : Host), hosts[j]? = some b → ∃ sender : Nat → Nat × Nat,
    (∀ k, b.hears k → (sender k).1 ≠ j ∧ ∃ a, hosts[(sender k).1]? = some a ∧ Passed a (sender k).2 b k) ∧
    ∀ k k', b.hears k → b.hears k' → sender k = sender k' → k = k'

/-- All daemons use the port of the protocol. -/
def Standard (hosts : List Host) : Prop :=
  ∀ b ∈ hosts, ∀ now g src o, ((Op.recv now g src, o) : Call) ∈ b.run → src.port = 5353

/-- No query is ever made with this daemon. -/
def Host.Curious (a : Host) : Prop := ∃ n t cb, Event.registered n t cb ∈ a.stop.c.log

/-! ### Lemmas -/

/-! #### What a record may still make the daemon send -/

/-- The packets a record waits for, and one if it can still be withdrawn. -/
def toll (v : View) : Nat :=
  match v.x with
  | none => 0
  | some x => x.weight v.at_ + (if x.rr.ttl ≠ 0 ∨ v.at_ = none then 1 else 0)

theorem toll_send {u v : View} {ls : List Lab} (h : RStep u ls v) (hl : ∀ a ∈ ls, a.sends) (hp : Placed u) :
    toll v ≤ toll u ∧ (Moves u v ls → toll v < toll u) := by
  have hw := h.weight hl hp
  cases h with
  | @touch x x' p h _ =>
    unfold View.weight at hw
    unfold toll
    simp only [h.rr] at *
    exact ⟨by omega, fun m => by have := hw.2 m; omega⟩
  | @skip x w hw' =>
    have : x.weight (some w) = 1 := hw'.weight x
    refine ⟨?_, ?_⟩
    · show 0 + _ ≤ x.weight (some w) + _
      rw [this]
      simp
    · rintro (⟨_, m⟩ | m | ⟨m, _⟩)
      · cases m
      · cases m
      · simp only [Option.some.injEq] at m
        subst m
        rcases hw' with h | h <;> cases h
  | shared => exact absurd (hl .new (by simp)) (by simp [Lab.sends])
  | unique => exact absurd (hl .new (by simp)) (by simp [Lab.sends])
  | edit => exact absurd (hl .set (by simp)) (by simp [Lab.sends])
  | publish => exact absurd (hl .set (by simp)) (by simp [Lab.sends])
  | queue => exact absurd (hl .ask (by simp)) (by simp [Lab.sends])
  | bye => exact absurd (hl .bye (by simp)) (by simp [Lab.sends])
  | drop => exact absurd (hl .free (by simp)) (by simp [Lab.sends])
  | @sent x x' w hw' ht h =>
    have hlt := hw.2 (.inl ⟨w, by simp⟩)
    unfold View.weight at hlt
    have : toll ⟨some x', none⟩ < toll ⟨some x, some w⟩ := by
      unfold toll
      simp only [h.rr] at *
      simp [ht]
      omega
    exact ⟨Nat.le_of_lt this, fun _ => this⟩
  | @sentBye x w hw' ht =>
    have hlt := hw.2 (.inl ⟨w, by simp⟩)
    unfold View.weight at hlt
    have : toll ⟨none, none⟩ < toll ⟨some x, some w⟩ := by
      unfold toll
      simp only at *
      omega
    exact ⟨Nat.le_of_lt this, fun _ => this⟩
  | @announce x x' ht h4 hr hu htr =>
    have hlt := hw.2 (.inl ⟨.publish, by simp⟩)
    unfold View.weight at hlt
    have : toll ⟨some x', some .publish⟩ < toll ⟨some x, some .publish⟩ := by
      unfold toll
      simp only [hr] at *
      omega
    exact ⟨Nat.le_of_lt this, fun _ => this⟩
  | @announceLast x x' ht h4 hr hu htr =>
    have hlt := hw.2 (.inl ⟨.publish, by simp⟩)
    unfold View.weight at hlt
    have : toll ⟨some x', none⟩ < toll ⟨some x, some .publish⟩ := by
      unfold toll
      simp only [hr] at *
      simp [ht]
      omega
    exact ⟨Nat.le_of_lt this, fun _ => this⟩
  | @verify x x' hu hr hu' ht =>
    have hlt := hw.2 (.inr (.inr ⟨rfl, by simp⟩))
    unfold View.weight at hlt
    have : toll ⟨some x', some .publish⟩ < toll ⟨some x, some .probing⟩ := by
      unfold toll
      simp only [hr] at *
      simp
      omega
    exact ⟨Nat.le_of_lt this, fun _ => this⟩
  | @propose x x' hu hr hu' ht =>
    have hlt := hw.2 (.inr (.inl (by simp [puts])))
    unfold View.weight at hlt
    have : toll ⟨some x', some .probing⟩ < toll ⟨some x, some .probing⟩ := by
      unfold toll
      simp only [hr] at *
      simp
      omega
    exact ⟨Nat.le_of_lt this, fun _ => this⟩
  | @unicast x x' p h =>
    unfold View.weight at hw
    unfold toll
    simp only [h.rr] at *
    exact ⟨by omega, fun m => by have := hw.2 m; omega⟩
  | @extra x p => exact ⟨Nat.le_refl _, fun m => absurd (hw.2 m) (Nat.lt_irrefl _)⟩

theorem tolls_send {u v : View} {ls : List Lab} (h : RSteps u ls v) (hl : ∀ a ∈ ls, a.sends) (hp : Placed u) :
    toll v ≤ toll u ∧ (Moves u v ls → toll v < toll u) := by
  induction h with
  | refl v =>
    refine ⟨Nat.le_refl _, ?_⟩
    rintro (⟨w, m⟩ | m | ⟨m1, m2⟩)
    · cases m
    · cases m
    · exact absurd m1 m2
  | @step u v w a b h n ih =>
    have h1 := toll_send h (fun x m => hl x (List.mem_append_left _ m)) hp
    have h2 := ih (fun x m => hl x (List.mem_append_right _ m)) (h.placed hp)
    refine ⟨Nat.le_trans h2.1 h1.1, ?_⟩
    have key : Moves u v a ∨ Moves v w b → toll w < toll u := by
      rintro (m | m)
      · exact Nat.lt_of_le_of_lt h2.1 (h1.2 m)
      · exact Nat.lt_of_lt_of_le (h2.2 m) h1.1
    rintro (⟨x, m⟩ | m | ⟨m1, m2⟩)
    · rcases List.mem_append.mp m with m | m
      · exact key (.inl (.inl ⟨x, m⟩))
      · exact key (.inr (.inl ⟨x, m⟩))
    · rw [puts_append] at m
      rcases List.mem_append.mp m with m | m
      · exact key (.inl (.inr (.inl m)))
      · exact key (.inr (.inr (.inl m)))
    · by_cases e : v.at_ = some .probing
      · exact key (.inr (.inr (.inr ⟨e, m2⟩)))
      · exact key (.inl (.inr (.inr ⟨m1, e⟩)))

/-- Queueing, withdrawing and freeing. -/
def Mild (ls : List Lab) : Prop := ∀ a ∈ ls, a = .ask ∨ a = .bye ∨ a = .free

theorem step_lives {u v : View} {ls : List Lab} (h : RStep u ls v) (hl : Mild ls) : ∀ x', v.x = some x' →
    ∃ x, u.x = some x ∧ (x.rr.ttl = 0 → x'.rr.ttl = 0) := by
  intro x' hx
  unfold Mild at hl
  cases h with
  | touch h _ => cases hx; exact ⟨_, rfl, fun e => by rw [h.rr]; exact e⟩
  | skip _ => cases hx; exact ⟨_, rfl, id⟩
  | queue => cases hx; exact ⟨_, rfl, id⟩
  | bye _ => cases hx; exact ⟨_, rfl, fun _ => rfl⟩
  | drop => cases hx
  | sentBye => simp at hl
  | _ => simp at hl

theorem steps_live {u v : View} {ls : List Lab} (h : RSteps u ls v) (hl : Mild ls) : ∀ x', v.x = some x' →
    ∃ x, u.x = some x ∧ (x.rr.ttl = 0 → x'.rr.ttl = 0) := by
  induction h with
  | refl => exact fun x' hx => ⟨x', hx, id⟩
  | @step u v w a b h n ih =>
    intro x' hx
    obtain ⟨y, hy, e1⟩ := ih (fun x m => hl x (List.mem_append_right _ m)) x' hx
    obtain ⟨x, hx, e2⟩ := step_lives h (fun x m => hl x (List.mem_append_left _ m)) y hy
    exact ⟨x, hx, fun e => e1 (e2 e)⟩

theorem toll_ge {u : View} (hp : Placed u) {x : Rec} (hx : u.x = some x) : max u.weight 1 ≤ toll u := by
  obtain ⟨o, p⟩ := u
  simp only at hx
  subst hx
  unfold toll View.weight
  cases p with
  | none => simp [Rec.weight]
  | some w =>
    simp only
    have : 1 ≤ x.weight (some w) := by
      cases w with
      | now => exact Nat.le_refl _
      | pause => exact Nat.le_refl _
      | publish => show 1 ≤ 1 + _; omega
      | probing =>
        have := ((hp x rfl).mpr rfl).2
        show 1 ≤ 9 - x.unique
        omega
    omega

theorem toll_le {v : View} {x : Rec} (hx : v.x = some x) (ht : x.rr.ttl = 0) : toll v ≤ max v.weight 1 := by
  obtain ⟨o, p⟩ := v
  simp only at hx
  subst hx
  unfold toll View.weight
  cases p with
  | none => simp [Rec.weight]
  | some w => simp [ht]; omega

theorem toll_live {v : View} {x : Rec} (hx : v.x = some x) (ht : x.rr.ttl ≠ 0) : toll v = v.weight + 1 := by
  obtain ⟨o, p⟩ := v
  simp only at hx
  subst hx
  unfold toll View.weight
  simp [ht]

/-- Only queueing a record that is not being withdrawn adds to what it makes the daemon send. -/
theorem tolls_mild {u v : View} {ls : List Lab} (h : RSteps u ls v) (hl : Mild ls) (hp : Placed u) :
    toll v ≤ toll u + (if Lab.ask ∈ ls then 1 else 0) ∧
      ((∀ x, v.x = some x → x.rr.ttl = 0) → toll v ≤ toll u) := by
  have hw := Bounded.steps_weight h hl
  cases hx : v.x with
  | none =>
    have : toll v = 0 := by unfold toll; rw [hx]
    exact ⟨by omega, fun _ => by omega⟩
  | some x' =>
    obtain ⟨x, hx0, ht⟩ := steps_live h hl x' hx
    have hg := toll_ge hp hx0
    have hz : x'.rr.ttl = 0 → toll v ≤ toll u := by
      intro e
      have := toll_le hx e
      split at hw <;> omega
    refine ⟨?_, fun hz' => hz (hz' x' rfl)⟩
    by_cases e : x'.rr.ttl = 0
    · have := hz e
      omega
    · have h1 := toll_live hx e
      have h2 := toll_live hx0 fun e' => e (ht e')
      split at hw <;> rename_i ha
      · rw [if_pos ha]; omega
      · rw [if_neg ha]; omega

/-! #### All records -/

/-- What the daemon may still send. -/
def due (c : Core) (l : Lists) : Nat := c.uanswers.length + sumTo (fun r => toll (view c l r)) l.size

theorem toll_none {c : Core} {l : Lists} (i : RInv c l) {r : Nat} (h : c.recs r = none) : toll (view c l r) = 0 := by
  rw [view_none i h]
  rfl

theorem sum_size {c : Core} {l : Lists} (i : RInv c l) {n : Nat} (h : l.size ≤ n) :
    sumTo (fun r => toll (view c l r)) n = sumTo (fun r => toll (view c l r)) l.size := by
  refine sumTo_more (fun r hr => toll_none i ?_) _ h
  cases hx : c.recs r with
  | none => rfl
  | some x => exact absurd (i.bound r (by rw [hx]; rfl)) (Nat.not_lt.mpr hr)

theorem due_live {c : Core} {l : Lists} (h : RInv c l) : due c l ≤ c.uanswers.length + 10 * c.allPublished.length := by
  refine Nat.add_le_add_left (sumTo_support (fun r hr => ?_) fun r => ?_) _
  · cases hx : c.recs r with
    | none => exact absurd (toll_none h hx) hr
    | some x => exact h.mem_all hx
  · have := View.weight_le (view c l r)
    unfold View.weight at this
    unfold toll
    split
    · omega
    · rename_i e
      rw [e] at this
      simp only at this
      split <;> omega

theorem due_idle {c : Core} {l : Lists} (h : RInv c l) (hq : ∀ w, l.q w = []) (hu : c.uanswers = []) :
    due c l ≤ c.allPublished.length := by
  unfold due
  rw [hu]
  have : sumTo (fun r => toll (view c l r)) l.size ≤ 1 * c.allPublished.length := by
    refine sumTo_support (fun r hr => ?_) fun r => ?_
    · cases hx : c.recs r with
      | none => exact absurd (toll_none h hx) hr
      | some x => exact h.mem_all hx
    · have e : l.place r = none := by
        unfold Lists.place
        simp [hq]
      unfold toll view
      simp only [e]
      split
      · omega
      · show 0 + _ ≤ 1
        split <;> omega
  simp only [List.length_nil]
  omega

/-- What is to be sent grows by at most the records queued. -/
theorem run_due {P : Nat → Lab → Prop} {c c' : Core} {l l' : Lists} (h : Run P c l [] c' l') (i : RInv c l) (rs : List Nat)
    (hp : ∀ r a, P r a → (a = .ask ∧ (c.recs r ≠ none → r ∈ rs)) ∨ a = .bye ∨ a = .free) {k : Nat}
    (hu : c'.uanswers.length ≤ c.uanswers.length + k) : due c' l' ≤ due c l + (rs.length + k) := by
  have hw : ∀ r, toll (view c' l' r) ≤ toll (view c l r) + (if r ∈ rs then 1 else 0) := by
    intro r
    obtain ⟨ls, n, _, p⟩ := h.steps r
    have hm : Mild ls := fun a m => by
      rcases hp r a (p a m) with h | h | h
      · exact .inl h.1
      · exact .inr (.inl h)
      · exact .inr (.inr h)
    by_cases hx : c.recs r = none
    · have : toll (view c' l' r) = 0 := by
        unfold toll
        cases e : (view c' l' r).x with
        | none => rfl
        | some x' =>
          obtain ⟨x, hx', _⟩ := steps_live n hm x' e
          rw [show (view c l r).x = c.recs r from rfl, hx] at hx'
          cases hx'
      omega
    have := (tolls_mild n hm (view_placed i r)).1
    by_cases e : Lab.ask ∈ ls
    · have hr : r ∈ rs := by
        rcases hp r _ (p _ e) with h | h | h
        · exact h.2 hx
        · cases h
        · cases h
      rw [if_pos e] at this
      rw [if_pos hr]
      omega
    · rw [if_neg e] at this
      split <;> omega
  have h1 := sumTo_le hw l'.size
  rw [Bounded.sumTo_add (fun r => toll (view c l r)) (fun r => if r ∈ rs then 1 else 0), sum_size i h.size] at h1
  have h3 : sumTo (fun r => if r ∈ rs then 1 else 0) l'.size ≤ 1 * rs.length :=
    sumTo_support (fun r hr => by
      by_cases e : r ∈ rs
      · exact e
      · rw [if_neg e] at hr
        exact absurd rfl hr) fun r => by split <;> omega
  unfold due
  omega

/-! #### Packets made -/

theorem out_tolls {env : Env} {c : Core} {l : Lists} {ret : Nat} {m : Out} {to : Addr} {c' : Core} {l' : Lists}
    (n : OutMsg env c l ret m to c' l') (hu : ∀ u ∈ c.uanswers, u.to.port ≠ 5353) (i : RInv c l) :
    sumTo (fun r => toll (view c' l' r)) l'.size ≤ sumTo (fun r => toll (view c l r)) l.size ∧
      ((∃ r, ((.an, r) ∈ m.tags ∧ (to.port == 5353) = true) ∨ (.ns, r) ∈ m.tags) →
        sumTo (fun r => toll (view c' l' r)) l'.size < sumTo (fun r => toll (view c l r)) l.size) := by
  have hr := n.run hu
  rw [← sum_size i hr.size]
  have pt : ∀ r, toll (view c' l' r) ≤ toll (view c l r) := by
    intro r
    obtain ⟨ls, hs, _, hp⟩ := hr.steps r
    exact (tolls_send hs (fun a m => (hp a m).sends) (view_placed i r)).1
  refine ⟨sumTo_le pt _, ?_⟩
  rintro ⟨r, h⟩
  have hlt : toll (view c' l' r) < toll (view c l r) := by
    obtain ⟨ls, hs, ht, hp⟩ := hr.steps r
    refine (tolls_send hs (fun a m => (hp a m).sends) (view_placed i r)).2 ?_
    rcases h with ⟨h, h5⟩ | h
    · left
      have : .an ∈ puts ls := by rw [ht]; exact mem_tagsOf.mpr h
      unfold puts at this
      obtain ⟨b, hb, e1⟩ := List.mem_filterMap.mp this
      cases b with
      | put s w =>
        simp only [Option.some.injEq] at e1
        subst e1
        obtain h | ⟨s, w', e2, h⟩ := hp _ hb
        · cases h
        · cases e2
          rw [h5] at h
          cases w with
          | none => simp at h
          | some w => exact ⟨w, hb⟩
      | _ => simp at e1
    · right; left
      rw [ht]
      exact mem_tagsOf.mpr h
  refine sumTo_lt pt hlt _ ?_
  refine Nat.lt_of_lt_of_le (Nat.lt_of_not_le fun hle => ?_) hr.size
  have : c.recs r = none := by
    cases hx : c.recs r with
    | none => rfl
    | some x => exact absurd (i.bound r (by rw [hx]; rfl)) (Nat.not_lt.mpr hle)
  rw [toll_none i this] at hlt
  exact absurd hlt (Nat.not_lt_zero _)

theorem out_due {env : Env} {c : Core} {l : Lists} {ret : Nat} {m : Out} {to : Addr} {c' : Core} {l' : Lists}
    (n : OutMsg env c l ret m to c' l') (hu : ∀ u ∈ c.uanswers, u.to.port ≠ 5353) (i : RInv c l) :
    due c' l' ≤ due c l ∧ (m.tags ≠ [] → due c' l' < due c l) := by
  have hw := out_tolls n hu i
  have hlen : c'.uanswers.length ≤ c.uanswers.length ∧ (∀ u us, c.uanswers = u :: us → c'.uanswers.length < c.uanswers.length) := by
    have h0 := n.uans
    have nil : c.uanswers = [] → c'.uanswers.length ≤ c.uanswers.length ∧
        (∀ u us, c.uanswers = u :: us → c'.uanswers.length < c.uanswers.length) := by
      intro e
      refine ⟨?_, fun u us e1 => by rw [e] at e1; cases e1⟩
      rw [e] at h0 ⊢
      cases e : c'.uanswers with
      | nil => exact Nat.le_refl _
      | cons u us => exact absurd (h0 u (by rw [e]; simp)) (by simp)
    cases n with
    | @unicast u us x _ seen hu hx na =>
      have : ({ c with uanswers := us, recs := upd c.recs u.r (some { x with lastSent := c.now }) } : Core).uanswers = us := rfl
      rw [this, hu]
      exact ⟨by simp, fun _ _ _ => by simp⟩
    | shutdown h => exact nil h
    | normal h => exact nil h
  refine ⟨by unfold due; omega, fun ht => ?_⟩
  unfold due
  have dec : (∃ r, ((.an, r) ∈ m.tags ∧ (to.port == 5353) = true) ∨ (.ns, r) ∈ m.tags) →
      c'.uanswers.length + sumTo (fun r => toll (view c' l' r)) l'.size <
      c.uanswers.length + sumTo (fun r => toll (view c l r)) l.size := by
    intro h2
    have := hw.2 h2
    omega
  cases n.kind with
  | answers as xs e ha _ _ _ hto =>
    cases as with
    | nil => exact absurd rfl ha
    | cons r rs =>
      refine dec ⟨r, .inl ⟨by rw [e]; simp, ?_⟩⟩
      rw [hto]
      cases c.family <;> rfl
  | probes rs _ e ha =>
    cases rs with
    | nil => exact absurd rfl ha
    | cons r rs => exact dec ⟨r, .inr (by rw [e]; simp)⟩
  | questions e => exact absurd e ht
  | unicast u us _ h =>
    have := hlen.2 u us h
    omega

/-! #### Packets received -/

theorem answer_tolls {env : Env} {src : Addr} {a : Resource} {did did' : Bool} {c c' : Core} {l l' : Lists}
    (n : InA env src a did c l did' c' l') (ha : a.WF) (h : DInv c l) (r : Nat) :
    toll (view c' l' r) ≤ toll (view c l r) := by
  have idle : ∀ {c'}, c'.recs = c.recs → toll (view c' l r) ≤ toll (view c l r) := by
    intro c' e
    unfold view
    rw [e]
    exact Nat.le_refl _
  cases n with
  | cache _ e =>
    refine idle ?_
    have := cacheIn_recs (c := c.received a) (h.cinv.received a) ha e
    exact (congrArg Core.recs this : c'.rest.recs = (c.received a).rest.recs)
  | own _ hl => exact idle hl.recs
  | @conflict s x c1 _ hr hl hx hu e =>
    have i := done_inv h hl hx
    have hc := cacheIn_recs (c := (doneSt (c1.heard [.conflict s x.rr.name x.rr.type]) l s x).c.received a)
      (i.cinv.received a) ha e
    have hrec : c'.recs = (doneSt (c1.heard [.conflict s x.rr.name x.rr.type]) l s x).c.recs :=
      (congrArg Core.recs hc :)
    have run : Run (Bounded.replyLab (· = s)) c l [] c' (doneSt (c1.heard [.conflict s x.rr.name x.rr.type]) l s x).q := by
      refine Run.trans (ts := []) (Run.trans (ts := []) (c1 := c1.heard [.conflict s x.rr.name x.rr.type]) (.idle hl.recs)
        (Run.done (c := c1.heard [.conflict s x.rr.name x.rr.type]) ((hl.rinv h.rinv).congr rfl rfl rfl) hx
          (.inl ⟨rfl, rfl⟩) (.inr (.inl rfl)) (.inr (.inr rfl)))) ?_
      exact .idle hrec
    obtain ⟨ls, st, _, p⟩ := run.steps r
    have hm : Mild ls := fun b m => by
      rcases p b m with h | h | h
      · exact .inl h.1
      · exact .inr (.inl h)
      · exact .inr (.inr h)
    have ht := tolls_mild st hm (view_placed h.rinv r)
    by_cases er : r = s
    · refine ht.2 fun y hy => ?_
      subst er
      have hy : c'.recs r = some y := hy
      rw [hrec] at hy
      unfold doneSt at hy
      split at hy
      · have : upd c1.recs r none r = some y := hy
        rw [upd_same] at this
        cases this
      · rw [sendSt_recs] at hy
        have : upd c1.recs r (some { x with rr := { x.rr with ttl := 0 } }) r = some y := hy
        rw [upd_same] at this
        cases this
        rfl
    · have : Lab.ask ∉ ls := fun m => by
        rcases p _ m with h | h | h
        · exact er h.2
        · cases h
        · cases h
      have := ht.1
      rw [if_neg ‹_›] at this
      exact this

theorem InA.size {env : Env} {src : Addr} {a : Resource} {did did' : Bool} {c c' : Core} {l l' : Lists}
    (n : InA env src a did c l did' c' l') (ha : a.WF) (h : DInv c l) : l.size ≤ l'.size :=
  (Bounded.answer_run (A := fun _ => True) n ha h fun _ _ _ _ _ => trivial).size

theorem answers_due {env : Env} {src : Addr} {as : List Resource} {did : Bool} {c c' : Core} {l l' : Lists}
    (n : InAs env src as did c l c' l') (ha : ∀ a ∈ as, a.WF) : due c' l' ≤ due c l := by
  induction n with
  | nil => exact Nat.le_refl _
  | cons i h _ ih =>
    have wf := ha _ (List.mem_cons_self ..)
    refine Nat.le_trans (ih fun a m => ha a (by simp [m])) ?_
    have h1 := sumTo_le (answer_tolls h wf i)
    have h2 := Bounded.answer_uans h wf i
    have h3 := sum_size i.rinv (InA.size h wf i)
    unfold due
    rw [← h3]
    exact Nat.add_le_add h2 (h1 _)

theorem question_multi {env : Env} {m : Msg} {src : Addr} {q : Question} {did did' : Bool} {c c' : Core} {l l' : Lists}
    (n : InQ env m src q did c l did' c' l') (hp : src.port = 5353) : c'.uanswers.length ≤ c.uanswers.length := by
  cases n with
  | none h => exact Nat.le_refl _
  | disco h _ _ n => rw [n.uanswers]; exact Nat.le_refl _
  | multi h _ _ n => exact Bounded.ans_uans n
  | uni h _ hm n hq => exact absurd hp hq.2

theorem questions_multi {env : Env} {m : Msg} {src : Addr} {qs : List Question} {did : Bool} {c c' : Core} {l l' : Lists}
    (n : InQs env m src qs did c l c' l') (hp : src.port = 5353) : c'.uanswers.length ≤ c.uanswers.length := by
  induction n with
  | nil => exact Nat.le_refl _
  | cons i h n ih => exact Nat.le_trans ih (question_multi h hp)

theorem recv_multi {env : Env} {now : TV} {m : Msg} {src : Addr} {c c' : Core} {l l' : Lists} {ret : Nat}
    (n : InMsg env now m src c l ret c' l') (ha : ∀ a ∈ m.an, a.WF) (hp : src.port = 5353) :
    c'.uanswers.length ≤ c.uanswers.length := by
  cases n with
  | shutdown => exact Nat.le_refl _
  | own _ hl _ => obtain ⟨_, _, _, rfl, _⟩ := hl; exact Nat.le_refl _
  | query _ hq hl _ n =>
    have := questions_multi n hp
    obtain ⟨_, _, _, rfl, _⟩ := hl
    exact this
  | response _ hq hl _ n =>
    have := Bounded.answers_uans n ha
    obtain ⟨_, _, _, rfl, _⟩ := hl
    exact this

theorem response_due {env : Env} {now : TV} {m : Msg} {src : Addr} {c c' : Core} {l l' : Lists} {ret : Nat}
    (n : InMsg env now m src c l ret c' l') (ha : ∀ a ∈ m.an, a.WF) (hq : m.header.qr = true) : due c' l' ≤ due c l := by
  have loc : ∀ {c1}, Locals env { c with now := now } c1 → due c1 l = due c l := by
    intro c1 hl
    obtain ⟨_, _, _, rfl, _⟩ := hl
    rfl
  cases n with
  | shutdown => exact Nat.le_refl _
  | own _ hl _ => exact Nat.le_of_eq (loc hl)
  | query _ hq' => rw [hq] at hq'; cases hq'
  | response _ _ hl _ n =>
    have := answers_due n ha
    rw [loc hl] at this
    exact this

/-! #### Calls -/

theorem did_due {env : Env} {o : Op} {c c' c0 : Core} {l l' l0 : Lists} {a : OpOut} (n : Did env o c l a c' l')
    (ho : o.ofStep = true) (h : DInv c l) (h0 : DInv c0 l0) (hu : ∀ u ∈ c.uanswers, u.to.port ≠ 5353)
    (s : Bounded.Since c0 c) : Bounded.Since c0 c' ∧
      due c' l' + bearing (packetsOf [(o, a)]) ≤ due c l + incited c0 o := by
  have hr := n.run h hu
  have hold : ∀ r, ¬ o.may l.size a r .new := by
    intro r
    cases o <;> first | (simp [Op.ofStep] at ho; done) | simp [Op.may, recvLab, sendLab]
  refine ⟨⟨s.named.trans (Bounded.run_named hr hold), (congrArg Prod.fst n.fixed : c'.cls = c.cls).trans s.cls⟩, ?_⟩
  have all : ∀ r, c.recs r ≠ none → r ∈ c0.allPublished := by
    intro r hr
    cases hx : c.recs r with
    | none => exact absurd hx hr
    | some x =>
      obtain ⟨y, hy, _⟩ := s.named r x hx
      exact h0.rinv.mem_all hy
  cases n with
  | @recv _ m src _ _ _ _ _ wf n =>
    show due c' l' + 0 ≤ due c l + incited c0 (.recv _ m src)
    simp only [incited]
    by_cases hq : m.header.qr = true
    · rw [if_pos hq]
      exact response_due n wf hq
    rw [if_neg hq]
    refine run_due (Bounded.recv_run n wf) h.rinv (namedBy c0 m) (fun r b hb => ?_) ?_
    · rcases hb with ⟨e, x, hx, hn⟩ | hb
      · refine .inl ⟨e, fun _ => ?_⟩
        obtain ⟨y, hy, e1, e2⟩ := s.named r x hx
        refine List.mem_filter.mpr ⟨h0.rinv.mem_all hy, ?_⟩
        rw [hy]
        simp only [decide_eq_true_eq]
        rw [s.cls] at hn
        unfold Msg.names Question.about typeFits at *
        rw [e1, e2]
        exact hn
      · exact .inr hb
    · by_cases hp : src.port = 5353
      · rw [if_pos hp]
        exact recv_multi n wf hp
      · rw [if_neg hp]
        have := Bounded.recv_uans (A := meant c0) n wf fun q r x hx ha => by
          obtain ⟨y, hy, e1, e2⟩ := s.named r x hx
          refine List.any_eq_true.mpr ⟨r, h0.rinv.mem_all hy, ?_⟩
          rw [hy]
          simp only [decide_eq_true_eq]
          rw [s.cls] at ha
          unfold Question.about typeFits at *
          rw [e1, e2]
          exact ha
        rw [if_neg hq] at this
        exact this
  | @send now ret m to _ _ _ _ n =>
    have := out_due n hu (h.atNow now).rinv
    have e : due { c with now := now } l = due c l := rfl
    show _ + bearing (packetsOf [_]) ≤ _ + 0
    unfold bearing packetsOf
    by_cases hret : ret = 0
    · simp [hret]
      omega
    · by_cases ht : m.tags = []
      · simp [hret, ht]
        omega
      · have := this.2 ht
        simp [hret, ht]
        omega
  | sleep n =>
    have e : c'.uanswers = c.uanswers := by cases n <;> rfl
    have := run_due (n.run h.rinv) h.rinv c0.allPublished (fun r b hb => .inl ⟨hb, all r⟩) (k := 0) (Nat.le_of_eq (by rw [e]; rfl))
    exact this
  | stepEnd => exact Nat.le_refl _
  | _ => simp [Op.ofStep] at ho

theorem calls_due {env : Env} {d d' : D Ptrs} {h : List Call} (n : Calls env d h d') (hr : Reach env d)
    (ho : ∀ k ∈ h, k.1.ofStep = true) : due d'.c d'.lists + bearing (packetsOf h) ≤
      due d.c d.lists + (h.map fun k => incited d.c k.1).sum := by
  have H : Bounded.Since d.c d'.c ∧ due d'.c d'.lists + bearing (packetsOf h) ≤
      due d.c d.lists + (h.map fun k => incited d.c k.1).sum := by
    refine n.induct (P := fun h1 c l => Bounded.Since d.c c ∧ due c l + bearing (packetsOf h1) ≤
      due d.c d.lists + (h1.map fun k => incited d.c k.1).sum) hr ⟨⟨.refl _, rfl⟩, Nat.le_refl _⟩ ?_
    rintro h1 c l o a c' l' ⟨h2, rfl⟩ ⟨s, ih⟩ i hu _ n i'
    obtain ⟨s', hl⟩ := did_due n (ho (o, a) (by simp)) i hr.inv hu s
    refine ⟨s', ?_⟩
    rw [Bounded.packetsOf_append, Bounded.bearing_append, List.map_append, List.sum_append]
    simp only [List.map_cons, List.map_nil, List.sum_cons, List.sum_nil]
    omega
  exact H.2

/-! #### Several daemons -/

theorem builder_header (m : Out) : m.builder.header = { qr := m.qr, aa := m.aa } := by
  have : ∀ (ops : List MOp) (b : Builder), (ops.foldl mstep b).header = b.header := by
    intro ops
    induction ops with
    | nil => exact fun _ => rfl
    | cons o ops ih =>
      intro b
      rw [List.foldl_cons, ih]
      cases o with
      | b o => exact (bstep_counts b o).2.2.2.2.2
      | srvNull p w o => rfl
  exact this _ _

/-- The kind of a packet arrives. -/
theorem parsed_qr {m : Out} {b : RBuf} {g : Msg} (hb : Holds b (messagePacket m.builder))
    (h : messageParse b structCap = .ok g) : g.header.qr = m.qr := by
  have hl : 12 ≤ (messagePacket m.builder).length := by
    have : (headerBytes m.builder).length = 12 := by simp [headerBytes, putShort, flagBytes]
    unfold messagePacket
    rw [List.length_append]
    omega
  have e2 : b.at_ 2 = flag0 m.builder.header := (hb.bytes 2 (by omega)).trans rfl
  have e3 : b.at_ 3 = flag1 m.builder.header := (hb.bytes 3 (by omega)).trans rfl
  rw [(parse_header _ _ _ h).2.1, e2, e3, flags_round_trip _ (by rw [builder_header]; exact ⟨by show 0 < 16; decide, by show 0 < 8; decide, by show 0 < 16; decide⟩),
    builder_header]

/-- The call receives a query. -/
def isHearing (k : Call) : Bool := match k.1 with | .recv _ g _ => !g.header.qr | _ => false

/-- The call sends a query. -/
def isAsking (k : Call) : Bool := match k.2 with | .sent ret m _ => decide (ret ≠ 0) && !m.qr | _ => false

/-- The places of some elements. -/
def places (p : Call → Bool) (l : List Call) : List Nat :=
  (List.range l.length).filter fun k => (l[k]?).any p

theorem places_length (p : Call → Bool) (l : List Call) : (places p l).length = (l.filter p).length := by
  have : ∀ l : List Call, ((List.range l.length).filter fun k => (l[k]?).any p).length = (l.filter p).length := by
    intro l
    induction l with
    | nil => rfl
    | cons x l ih =>
      rw [List.length_cons, List.range_succ_eq_map, List.filter_cons, List.filter_map, List.filter_cons]
      have e : ((fun k => ((x :: l)[k]?).any p) ∘ Nat.succ) = fun k => (l[k]?).any p := by
        funext k
        simp
      rw [e]
      simp only [List.getElem?_cons_zero, Option.any_some]
      split <;> simp [ih]
  exact this l

theorem mem_places {p : Call → Bool} {l : List Call} {k : Nat} : k ∈ places p l ↔ ∃ x, l[k]? = some x ∧ p x = true := by
  unfold places
  rw [List.mem_filter, List.mem_range]
  constructor
  · rintro ⟨h1, h2⟩
    rw [List.getElem?_eq_getElem h1] at h2 ⊢
    exact ⟨_, rfl, h2⟩
  · rintro ⟨x, h1, h2⟩
    refine ⟨?_, by rw [h1]; exact h2⟩
    exact (List.getElem?_eq_some_iff.mp h1).1

theorem places_nodup (p : Call → Bool) (l : List Call) : (places p l).Nodup :=
  List.Pairwise.filter _ List.nodup_range

theorem queries_asking (a : Host) : a.queries = (a.run.filter isAsking).length := by
  have : ∀ h : List Call, ((packetsOf h).filter fun p => !p.1.qr).length = (h.filter isAsking).length := by
    intro h
    induction h with
    | nil => rfl
    | cons k h ih =>
      obtain ⟨o, b⟩ := k
      rw [show (o, b) :: h = [(o, b)] ++ h from rfl, Bounded.packetsOf_append, List.filter_append, List.filter_append,
        List.length_append, List.length_append, ih]
      congr 1
      cases b with
      | sent ret m to =>
        simp only [packetsOf, isAsking, List.filterMap_cons, List.filterMap_nil, List.filter_cons, List.filter_nil]
        by_cases h0 : ret = 0
        · simp [h0]
        · simp [h0, List.filter_cons]
          split <;> rfl
      | _ => rfl
  exact this a.run

/-- The queries sent, by sender and place. -/
def asked (hosts : List Host) : List (Nat × Nat) :=
  (List.range hosts.length).flatMap fun i => match hosts[i]? with
    | some a => (places isAsking a.run).map fun p => (i, p)
    | none => []

theorem asked_length (hosts : List Host) : (asked hosts).length = (hosts.map Host.queries).sum := by
  unfold asked
  rw [List.length_flatMap]
  congr 1
  refine List.ext_getElem (by simp) fun i h1 h2 => ?_
  rw [List.getElem_map, List.getElem_map, List.getElem_range]
  simp only [List.length_map, List.length_range] at h1
  rw [List.getElem?_eq_getElem h1]
  simp only [List.length_map]
  rw [places_length, queries_asking]

theorem mem_asked {hosts : List Host} {i p : Nat} {a : Host} (h : hosts[i]? = some a) (hp : p ∈ places isAsking a.run) :
    (i, p) ∈ asked hosts := by
  refine List.mem_flatMap.mpr ⟨i, List.mem_range.mpr (List.getElem?_eq_some_iff.mp h).1, ?_⟩
  rw [h]
  exact List.mem_map.mpr ⟨p, hp, rfl⟩

/-- No daemon hears more queries than the others send. -/
theorem heard_le {hosts : List Host} (hw : Wired hosts) {j : Nat} {b : Host} (hj : hosts[j]? = some b) :
    (b.run.filter isHearing).length + b.queries ≤ (hosts.map Host.queries).sum := by
  obtain ⟨f, hf, hi⟩ := hw j b hj
  have hears : ∀ k ∈ places isHearing b.run, b.hears k := by
    intro k m
    obtain ⟨⟨o, a⟩, h1, h2⟩ := mem_places.mp m
    cases o with
    | recv now g src => exact ⟨now, g, src, a, h1, by simpa [isHearing] using h2⟩
    | _ => simp [isHearing] at h2
  have hn : ((places isHearing b.run).map f ++ (places isAsking b.run).map fun p => (j, p)).Nodup := by
    rw [List.nodup_append]
    refine ⟨?_, ?_, ?_⟩
    · rw [List.Nodup, List.pairwise_map]
      refine List.Pairwise.imp_of_mem ?_ (places_nodup isHearing b.run)
      intro k k' m m' hne e
      exact hne (hi k k' (hears k m) (hears k' m') e)
    · rw [List.Nodup, List.pairwise_map]
      refine List.Pairwise.imp ?_ (places_nodup isAsking b.run)
      intro k k' hne e
      exact hne (congrArg Prod.snd e)
    · intro x m y m' e
      obtain ⟨k, mk, rfl⟩ := List.mem_map.mp m
      obtain ⟨p, _, rfl⟩ := List.mem_map.mp m'
      exact (hf k (hears k mk)).1 (congrArg Prod.fst e)
  have hsub : ((places isHearing b.run).map f ++ (places isAsking b.run).map fun p => (j, p)) ⊆ asked hosts := by
    intro x m
    rcases List.mem_append.mp m with m | m
    · obtain ⟨k, mk, rfl⟩ := List.mem_map.mp m
      have hk := hears k mk
      obtain ⟨_, a, ha, t, ret, m, to, now, g, src, o, buf, h1, h2, h3, h4, h5⟩ := hf k hk
      refine mem_asked (i := (f k).1) (p := (f k).2) ha (mem_places.mpr ⟨_, h1, ?_⟩)
      obtain ⟨now', g', src', o', h6, h7⟩ := hk
      rw [h5] at h6
      cases h6
      have := parsed_qr h3 h4
      rw [h7] at this
      simp [isAsking, h2, ← this]
    · obtain ⟨p, mp, rfl⟩ := List.mem_map.mp m
      exact mem_asked hj mp
  have := List.Nodup.length_le_of_subset hn hsub
  rw [List.length_append, List.length_map, List.length_map, places_length, places_length, asked_length] at this
  rw [queries_asking]
  exact this

theorem incited_le (a : Host) (hp : ∀ now g src o, ((Op.recv now g src, o) : Call) ∈ a.run → src.port = 5353) :
    (a.run.map fun k => incited a.start.c k.1).sum ≤
      a.records * (a.run.filter isHearing).length + a.records * a.sleeps := by
  unfold Host.sleeps
  have : ∀ h : List Call, (∀ now g src o, ((Op.recv now g src, o) : Call) ∈ h → src.port = 5353) →
      (h.map fun k => incited a.start.c k.1).sum ≤ a.records * (h.filter isHearing).length +
        a.records * (h.filter fun k => match k.1 with | .sleep _ => true | _ => false).length := by
    intro h
    induction h with
    | nil => exact fun _ => Nat.le_refl _
    | cons k h ih =>
      intro hp
      have := ih fun now g src o m => hp now g src o (by simp [m])
      obtain ⟨o, b⟩ := k
      rw [List.map_cons, List.sum_cons, List.filter_cons, List.filter_cons]
      cases o with
      | recv now g src =>
        have h5 := hp now g src b (by simp)
        have hle : (namedBy a.start.c g).length ≤ a.records := List.length_filter_le _ _
        cases hq : g.header.qr with
        | true =>
          have e : incited a.start.c (.recv now g src) = 0 := by simp [incited, hq]
          simp only [e, isHearing, hq, Bool.not_true, Bool.false_eq_true, if_false]
          omega
        | false =>
          have e : incited a.start.c (.recv now g src) = (namedBy a.start.c g).length := by simp [incited, hq, h5]
          simp only [e, isHearing, hq, Bool.not_false, Bool.false_eq_true, if_false, if_true, List.length_cons, Nat.mul_succ]
          omega
      | sleep now =>
        have e : incited a.start.c (.sleep now) = a.records := rfl
        simp only [e, isHearing, Bool.false_eq_true, if_false, if_true, List.length_cons, Nat.mul_succ]
        omega
      | _ => simpa [incited, isHearing] using this
  exact this a.run hp

theorem host_sends {hosts : List Host} (hw : Wired hosts) (hs : Standard hosts) {j : Nat} {b : Host} (hj : hosts[j]? = some b)
    (hr : b.Runs) : b.sends ≤ b.start.c.uanswers.length + 10 * b.records +
      b.records * ((hosts.map Host.queries).sum - b.queries) + b.records * b.sleeps := by
  have h1 := calls_due hr.calls hr.hist.reach hr.step
  have h2 := due_live hr.hist.reach.inv.rinv
  have h3 := incited_le b (hs b (List.mem_of_getElem? hj))
  have h4 := heard_le hw hj
  have h5 : b.records * (b.run.filter isHearing).length ≤ b.records * ((hosts.map Host.queries).sum - b.queries) :=
    Nat.mul_le_mul_left _ (by omega)
  have e : b.sends = bearing (packetsOf b.run) := rfl
  have e' : b.records = b.start.c.allPublished.length := rfl
  omega

/-! #### Queries are probes, if nobody asks -/

theorem calls_since {env : Env} {d d' : D Ptrs} {h : List Call} (n : Calls env d h d') (hr : Reach env d)
    (ho : ∀ k ∈ h, k.1.ofStep = true) : Bounded.Since d.c d'.c := by
  refine n.induct (P := fun _ c _ => Bounded.Since d.c c) hr ⟨.refl _, rfl⟩ ?_
  rintro h1 c l o a c' l' ⟨h2, rfl⟩ s i hu _ n i'
  exact (did_due n (ho (o, a) (by simp)) i hr.inv hu s).1

theorem registered_none : ∀ (log : List Event), (∀ n t cb, Event.registered n t cb ∉ log) → ∀ n t, callback log n t = none := by
  intro log h n t
  suffices H : ∀ (log : List Event) (s : Option Nat), (∀ n t cb, Event.registered n t cb ∉ log) → s = none →
      log.foldl (fun s e => match e with
        | .registered h ty cb => if h = n ∧ ty = t then some cb else s
        | .unregistered h ty => if h = n ∧ ty = t then none else s
        | _ => s) s = none from H log none h rfl
  intro log
  induction log with
  | nil => exact fun _ _ hs => hs
  | cons e log ih =>
    intro s h hs
    rw [List.foldl_cons]
    refine ih _ (fun n t cb m => h n t cb (by simp [m])) ?_
    cases e with
    | registered n' t' cb => exact absurd (List.mem_cons_self ..) (h n' t' cb)
    | unregistered n' t' => simp only; split <;> simp [hs]
    | _ => exact hs

theorem no_queries {c : Core} (h : CInv c) (hn : ∀ n t cb, Event.registered n t cb ∉ c.log) : c.qlist = [] := by
  cases e : c.qlist with
  | nil => rfl
  | cons q qs =>
    obtain ⟨x, hx⟩ := h.qlist q (by rw [e]; simp)
    have := (h.tcb x.name x.type x.cb).mpr ⟨q, x, hx, rfl, rfl, rfl⟩
    rw [registered_none _ hn] at this
    cases this

theorem query_probes {env : Env} {c : Core} {l : Lists} {ret : Nat} {m : Out} {to : Addr} {c' : Core} {l' : Lists}
    (n : OutMsg env c l ret m to c' l') (hq : c.qlist = []) (h0 : ret ≠ 0) (hqr : m.qr = false) :
    to.port = 5353 ∧ ∃ r, (.ns, r) ∈ m.tags := by
  have port : ∀ f, (mcast f).port = 5353 := by intro f; cases f <;> rfl
  cases n.asking with
  | other e _ _ =>
    cases n.kind with
    | answers as xs e ha hr hm hqs hto =>
      exfalso
      have hu : c.uanswers = [] := by
        cases n with
        | @unicast u us x _ seen hu hx na => rw [na.qr] at hqr; cases hqr
        | shutdown hu => exact hu
        | normal hu => exact hu
      cases as with
      | nil => exact ha rfl
      | cons r rs =>
        have := n.answer_qr hu (r := r) (by rw [e]; simp)
        rw [hqr] at this
        cases this
    | probes rs hn ht hr _ _ hto =>
      refine ⟨by rw [hto]; exact port _, ?_⟩
      cases rs with
      | nil => exact absurd rfl hr
      | cons r rs => exact ⟨r, by rw [ht]; simp⟩
    | questions ht hto =>
      rcases n.sort h0 with h | ⟨m1, c2, c3, e2, nq, _⟩
      · exact absurd ht h
      · exfalso
        have e2 : c2.qlist = c.qlist := (congrArg Core.qlist e2 : c2.recfree.qlist = c.recfree.qlist)
        cases nq with
        | no => exact h0 rfl
        | @yes t _ _ nu =>
          rw [e2, hq] at nu
          cases nu
          exact h0 rfl
    | unicast u us xs hu =>
      exfalso
      cases n with
      | @unicast u us x _ seen hu hx na => rw [na.qr] at hqr; cases hqr
      | shutdown hu' => rw [hu'] at hu; cases hu
      | normal hu' => rw [hu'] at hu; cases hu
  | @asking c2 c3 e nq _ =>
    exfalso
    have e2 : c2.qlist = c.qlist := (congrArg Core.qlist e : c2.recfree.qlist = c.recfree.qlist)
    cases nq with
    | no => exact h0 rfl
    | @yes t _ _ nu =>
      rw [e2, hq] at nu
      cases nu
      exact h0 rfl

theorem count_le {p : Call → Bool} {q : Nat → Call → Bool} {rs : List Nat} : ∀ {l : List Call},
    (∀ k ∈ l, p k = true → ∃ r ∈ rs, q r k = true) →
    (l.filter p).length ≤ (rs.map fun r => (l.filter (q r)).length).sum := by
  intro l
  induction l with
  | nil => exact fun _ => Nat.zero_le _
  | cons k l ih =>
    intro h
    have h1 := ih fun k' m => h k' (by simp [m])
    have h2 : (rs.map fun r => ((k :: l).filter (q r)).length).sum =
        (rs.map fun r => (l.filter (q r)).length).sum + (rs.filter fun r => q r k).length := by
      clear h ih h1
      induction rs with
      | nil => rfl
      | cons r rs ih =>
        rw [List.map_cons, List.sum_cons, ih, List.map_cons, List.sum_cons, List.filter_cons, List.filter_cons]
        cases q r k <;> simp <;> omega
    rw [h2, List.filter_cons]
    by_cases hp : p k = true
    · rw [if_pos hp]
      obtain ⟨r, mr, hr⟩ := h k (by simp) hp
      have : 0 < (rs.filter fun r => q r k).length := List.length_pos_of_mem (List.mem_filter.mpr ⟨mr, hr⟩)
      simp only [List.length_cons]
      omega
    · rw [if_neg hp]
      omega

theorem sum_le {α : Type} {f : α → Nat} {b : Nat} : ∀ {l : List α}, (∀ x ∈ l, f x ≤ b) → (l.map f).sum ≤ b * l.length := by
  intro l
  induction l with
  | nil => exact fun _ => Nat.zero_le _
  | cons x l ih =>
    intro h
    have := ih fun y m => h y (by simp [m])
    have := h x (by simp)
    simp only [List.map_cons, List.sum_cons, List.length_cons, Nat.mul_succ]
    omega

/-- Without queries, no record is in more than three. -/
theorem queries_le {a : Host} (hr : a.Runs) (hc : ¬ a.Curious) : a.queries ≤ 3 * a.records := by
  rw [queries_asking]
  have hreach := hr.hist.reach
  have h1 := count_le (p := isAsking) (q := Call.shows .ns) (rs := a.start.c.allPublished) (l := a.run) fun k mk hk => by
    obtain ⟨pre, post, e⟩ := List.append_of_mem mk
    obtain ⟨o, b⟩ := k
    have n := hr.calls
    rw [e] at n
    obtain ⟨d1, d2, n1, hs, es, n2⟩ := n.at
    have r1 := n1.reach hreach
    have r2 := r1.step hs es
    have st : ∀ k ∈ pre, k.1.ofStep = true := fun k m => hr.step k (by rw [e]; simp [m])
    have since := calls_since n1 hreach st
    have hd := r1.did hs es
    have ho := hr.step (o, b) mk
    obtain ⟨ev1, l1⟩ := (Calls.just hs es).log r1
    obtain ⟨ev2, l2⟩ := n2.log r2
    have hlog : ∀ n t cb, Event.registered n t cb ∉ d1.c.log := fun n t cb m =>
      hc ⟨n, t, cb, by rw [l2, l1]; simp [m]⟩
    have hq := no_queries r1.inv.cinv hlog
    have i1 := r1.inv
    have u1 := r1.uni
    generalize d2.c = c2, d2.lists = ls2 at hd
    cases hd with
    | @send now ret m to _ _ _ _ n =>
      have hk : ret ≠ 0 ∧ m.qr = false := by simpa [isAsking] using hk
      obtain ⟨hp, r, mr⟩ := query_probes n (c := { d1.c with now := now }) hq hk.1 hk.2
      refine ⟨r, ?_, by simp [Call.shows, OpOut.multi, OpOut.tags, hp, mr]⟩
      have hx : d1.c.recs r ≠ none := by
        intro hx
        obtain ⟨ls, st, hput, hlab⟩ := (n.run u1).steps r
        have := (st.none (view_none (c := { d1.c with now := now }) (i1.atNow now).rinv hx) fun m => by
          have := hlab _ m
          simp [sendLab] at this).1
        subst this
        have : Section.ns ∈ tagsOf m.tags r := mem_tagsOf.mpr mr
        rw [← hput] at this
        cases this
      cases hx' : d1.c.recs r with
      | none => exact absurd hx' hx
      | some x =>
        obtain ⟨y, hy, _⟩ := since.named r x hx'
        exact hreach.inv.rinv.mem_all hy
    | _ => simp [isAsking] at hk
  refine Nat.le_trans h1 (sum_le fun r _ => ?_)
  have h3 := (C29_three_probes_partial (hr.hist.calls hr.calls) (r := r)).1
  unfold shown at h3
  rw [List.filter_append, List.length_append] at h3
  omega

theorem sums {hosts : List Host} {f g : Host → Nat} (h : ∀ b ∈ hosts, f b ≤ g b) : (hosts.map f).sum ≤ (hosts.map g).sum := by
  induction hosts with
  | nil => exact Nat.le_refl _
  | cons b hosts ih =>
    have h1 := ih fun b m => h b (by simp [m])
    have h2 := h b (by simp)
    simp only [List.map_cons, List.sum_cons]
    omega

theorem sum_lin {hosts : List Host} (u r s : Host → Nat) (k : Nat) :
    (hosts.map fun b => u b + 10 * r b + r b * k + s b).sum =
      (hosts.map u).sum + 10 * (hosts.map r).sum + (hosts.map r).sum * k + (hosts.map s).sum := by
  induction hosts with
  | nil => simp
  | cons b hosts ih =>
    simp only [List.map_cons, List.sum_cons, ih, Nat.add_mul]
    omega

end Network

/-! ### Theorems -/

/-- C78: responses do not make a daemon talk.  The packets with records it sends, from any state and
for as long as it is run, are at most one for every unicast reply and ten for every record pending at
the start, and one for every record each query received asks for and for every record each time the
time to wait is asked for; responses, of whatever number and content, add none. -/
theorem C78_responses {env : Env} {d d' : D Ptrs} {h : List Call} (hr : Reach env d) (n : Calls env d h d')
    (ho : ∀ k ∈ h, k.1.ofStep = true) : bearing (packetsOf h) ≤
      d.c.uanswers.length + 10 * d.c.allPublished.length + (h.map fun k => incited d.c k.1).sum := by
  have h1 := Network.calls_due n hr ho
  have h2 := Network.due_live hr.inv.rinv
  omega

/-- C78: from a state in which nothing is waiting to be sent, what is sent other than for queries
and renewals is at most one packet for every record: its goodbye. -/
theorem C78_responses_idle {env : Env} {d d' : D Ptrs} {h : List Call} (hr : Reach env d) (hq : ∀ w, d.lists.q w = [])
    (hu : d.c.uanswers = []) (n : Calls env d h d') (ho : ∀ k ∈ h, k.1.ofStep = true) : bearing (packetsOf h) ≤
      d.c.allPublished.length + (h.map fun k => incited d.c k.1).sum := by
  have h1 := Network.calls_due n hr ho
  have h2 := Network.due_idle hr.inv.rinv hq hu
  omega

open Network in
/-- C78: any number of daemons on one network.  Whatever the order in which packets arrive, and
whichever are lost, a daemon sends at most, in packets with records, what is pending at the start (one
for every unicast reply, ten for every record), one for every record it has and every query another
daemon sends, and one for every record each time it asks for the time to wait. -/
theorem C78_network {hosts : List Host} (hr : ∀ b ∈ hosts, b.Runs) (hw : Wired hosts) (hs : Standard hosts) :
    ∀ b ∈ hosts, b.sends ≤ b.start.c.uanswers.length + 10 * b.records +
      b.records * ((hosts.map Host.queries).sum - b.queries) + b.records * b.sleeps := by
  intro b m
  obtain ⟨j, hj⟩ := List.getElem?_of_mem m
  exact host_sends hw hs hj (hr b m)

open Network in
/-- C78: daemons that only publish fall silent.  If no daemon of the network has a query, all packets
with records together are at most those pending at the start, three for every two records, and the
renewals: nothing they hear from each other makes them go on. -/
theorem C78_silence {hosts : List Host} (hr : ∀ b ∈ hosts, b.Runs) (hw : Wired hosts) (hs : Standard hosts)
    (hc : ∀ b ∈ hosts, ¬ b.Curious) :
    (hosts.map Host.sends).sum ≤ (hosts.map fun b => b.start.c.uanswers.length).sum + 10 * (hosts.map Host.records).sum +
      (hosts.map Host.records).sum * (3 * (hosts.map Host.records).sum) + (hosts.map fun b => b.records * b.sleeps).sum := by
  have hq : (hosts.map Host.queries).sum ≤ 3 * (hosts.map Host.records).sum := by
    have : ∀ l : List Host, (∀ b ∈ l, b.queries ≤ 3 * b.records) → (l.map Host.queries).sum ≤ 3 * (l.map Host.records).sum := by
      intro l
      induction l with
      | nil => exact fun _ => Nat.le_refl _
      | cons b l ih =>
        intro h
        have := ih fun b m => h b (by simp [m])
        have := h b (by simp)
        simp only [List.map_cons, List.sum_cons]
        omega
    exact this hosts fun b m => queries_le (hr b m) (hc b m)
  rw [← sum_lin (fun b => b.start.c.uanswers.length) Host.records (fun b => b.records * b.sleeps)]
  refine sums fun b m => Nat.le_trans (C78_network hr hw hs b m) ?_
  have : b.records * ((hosts.map Host.queries).sum - b.queries) ≤ b.records * (3 * (hosts.map Host.records).sum) :=
    Nat.mul_le_mul_left _ (by omega)
  omega

/-! ### Witnesses -/

namespace Network.Sample
open Mdns.Sample

/-- What is parsed of the last packet made. -/
def heardOf (h : List Call) : Msg :=
  match h.getLast? with
  | some (_, .sent _ m _) =>
    match messageParse (RBuf.ofBytes recvSize (messagePacket m.builder)) structCap with
    | .ok g => g
    | _ => ⟨0, {}, [], [], [], []⟩
  | _ => ⟨0, {}, [], [], [], []⟩

/-- A daemon that has published an address, and one that wants to use the same name. -/
def resident : D Ptrs := (trace quiet ([.shared nameA 1 120, .setIp 0 ipA] ++ every 101 4) fresh).2
def newcomer : D Ptrs := (trace quiet [.unique nameA 1 120 (some 1), .setIp 0 ipA] fresh).2

/-- The probe is answered, twice the answer arrives, and the newcomer gives up. -/
def probe : Msg := heardOf (trace quiet [.send (at_ 110)] newcomer).1
def residentOps : List Op := [.recv (at_ 111) probe other, .send (at_ 112), .send (at_ 113)]
def reply : Msg := heardOf (trace quiet (residentOps.take 2) resident).1
def newcomerOps : List Op := [.send (at_ 110), .recv (at_ 112) reply other, .recv (at_ 112) reply other, .send (at_ 113)]

def hostA : Host :=
  ⟨quiet, (trace quiet ([.shared nameA 1 120, .setIp 0 ipA] ++ every 101 4) fresh).1, resident, (trace quiet residentOps resident).1,
    (trace quiet residentOps resident).2⟩
def hostB : Host :=
  ⟨quiet, (trace quiet [.unique nameA 1 120 (some 1), .setIp 0 ipA] fresh).1, newcomer, (trace quiet newcomerOps newcomer).1,
    (trace quiet newcomerOps newcomer).2⟩

example : hostA.sends = 1 ∧ hostB.sends = 1 ∧ hostA.queries = 0 ∧ hostB.queries = 1 ∧ hostA.records = 1 ∧ hostB.records = 1 ∧
    hostB.stop.c.recs 0 = none ∧ probe.header.qr = false ∧ reply.header.qr = true := by decide +kernel

theorem hears_isHearing {b : Host} {k : Nat} (h : b.hears k) : k ∈ places isHearing b.run := by
  obtain ⟨now, g, src, o, h1, h2⟩ := h
  exact mem_places.mpr ⟨_, h1, by simp [isHearing, h2]⟩

/-- C78: the hypotheses hold for the two. -/
example : (∀ b ∈ [hostA, hostB], b.Runs) ∧ Wired [hostA, hostB] ∧ Standard [hostA, hostB] ∧ (∀ b ∈ [hostA, hostB], ¬ b.Curious) ∧
    hostA.hears 0 := by
  have hA : hostA.Runs := ⟨hist_of (by decide +kernel), calls_of (by decide +kernel), by decide +kernel⟩
  have hB : hostB.Runs := ⟨hist_of (by decide +kernel), calls_of (by decide +kernel), by decide +kernel⟩
  have eA : places isHearing hostA.run = [0] := by decide +kernel
  have eB : places isHearing hostB.run = [] := by decide +kernel
  have port : ∀ b ∈ [hostA, hostB], b.run.all (fun k => match k.1 with | .recv _ _ src => src.port == 5353 | _ => true) = true := by
    decide +kernel
  have reg : ∀ b ∈ [hostA, hostB], b.stop.c.log.all (fun e => match e with | .registered .. => false | _ => true) = true := by
    decide +kernel
  have h0 : hostA.hears 0 := by
    have : 0 ∈ places isHearing hostA.run := by rw [eA]; simp
    obtain ⟨⟨o, a⟩, h1, h2⟩ := mem_places.mp this
    cases o with
    | recv now g src => exact ⟨now, g, src, a, h1, by simpa [isHearing] using h2⟩
    | _ => simp [isHearing] at h2
  refine ⟨?_, ?_, ?_, ?_, h0⟩
  · intro b m
    simp only [List.mem_cons, List.not_mem_nil, or_false] at m
    rcases m with rfl | rfl
    · exact hA
    · exact hB
  · intro j b hj
    match j with
    | 0 =>
      cases hj
      refine ⟨fun _ => (1, 0), fun k hk => ?_, fun k k' hk hk' _ => ?_⟩
      · have := hears_isHearing hk
        rw [eA, List.mem_singleton] at this
        subst this
        refine ⟨by decide, hostB, rfl, ?_⟩
        have hs : (hostB.run[0]?).any (fun k => match k with
            | (.send _, .sent ret m _) => decide (ret ≠ 0) &&
              decide (messageParse ⟨(messagePacket m.builder).length, fun i => (messagePacket m.builder).getD i 0⟩ structCap = .ok probe)
            | _ => false) = true := by decide +kernel
        have hr : (hostA.run[0]?).any (fun k => match k with
            | (.recv _ g _, _) => decide (g = probe)
            | _ => false) = true := by decide +kernel
        cases es : hostB.run[0]? with
        | none => rw [es] at hs; cases hs
        | some k =>
          cases er : hostA.run[0]? with
          | none => rw [er] at hr; cases hr
          | some k' =>
            rw [es] at hs
            rw [er] at hr
            obtain ⟨o, a⟩ := k
            obtain ⟨o', a'⟩ := k'
            cases o' with
            | recv now g src =>
              simp only [Option.any_some, decide_eq_true_eq] at hr
              subst hr
              cases o with
              | send t =>
                cases a with
                | sent ret m to =>
                  simp only [Option.any_some, Bool.and_eq_true, decide_eq_true_eq] at hs
                  exact ⟨t, ret, m, to, now, probe, src, a', _, es, hs.1, holds_self _, hs.2, er⟩
                | _ => simp at hs
              | _ => simp at hs
            | _ => simp at hr
      · have h1 := hears_isHearing hk
        have h2 := hears_isHearing hk'
        rw [eA, List.mem_singleton] at h1 h2
        rw [h1, h2]
    | 1 =>
      cases hj
      refine ⟨fun _ => (0, 0), fun k hk => ?_, fun k k' hk hk' _ => ?_⟩
      · have := hears_isHearing hk
        rw [eB] at this
        cases this
      · have := hears_isHearing hk
        rw [eB] at this
        cases this
    | j + 2 => cases hj
  · intro b m now g src o mo
    have := List.all_eq_true.mp (port b m) _ mo
    simpa using this
  · rintro b m ⟨n, t, cb, me⟩
    have := List.all_eq_true.mp (reg b m) _ me
    cases this

end Network.Sample

end Mdns
