import Verif.Lemmas.CallingSim

/-!
# C108: callbacks may call the library

Answer callbacks, conflict callbacks and the callback for received records of one program that make calls themselves, while packets are received and made.
-/

namespace Mdns

open M

/-- What the caller has to see to: as in `OpSafe`, where what callbacks do while a packet is made concerns `p`. -/
def OpSafeCb (env : Env) (p : Callbacks) (c : Core) (q : W → List Nat) : Op → Prop
  | .send now => p.Careful ∨ ({ c with now := now } : Core).Unexpired c.qlist
  | o => OpSafe env c q o

theorem OpSafeCb.other {env : Env} {p : Callbacks} {c : Core} {q : W → List Nat} {o : Op} (hs : OpSafeCb env p c q o) (h : o.calling = false) :
    OpSafe env c q o := by
  cases o <;> first | exact hs | cases h

/-- The states that calls lead to where the callbacks are those of `p`. -/
inductive ReachCb (env : Env) (p : Callbacks) : D Ptrs → Prop
  | new (cls frame : Nat) (now : TV) : ReachCb env p (newD cls frame now)
  | step {d d' : D Ptrs} {o : Op} {a : OpOut} (h : ReachCb env p d) (hs : OpSafeCb env p d.c d.q.walk o)
      (e : stepCb env p o d = .ok (a, d')) : ReachCb env p d'

/-- All callbacks of a program make calls that are safe there. -/
structure Callbacks.Sound (env : Env) (p : Callbacks) : Prop where
  answer : p.Polite env
  conflict : p.conflict.Considerate

/-- The calls that call answer callbacks: making a packet, and receiving a response. -/
def Op.passing : Op → Bool
  | .recv _ m _ => m.header.qr
  | .send _ => true
  | _ => false

theorem Onward.inv {env : Env} {p : Callbacks} {c c' : Core} {l' : Lists} (h : Onward env p c c' l') : DInv c' l' := by
  obtain ⟨_, _, _, n⟩ := h
  exact n.inv

theorem stepCb_ok {env : Env} {p : Callbacks} (hp : p.Sound env) {c : Core} {l : Lists} (h : DInv c l) (o : Op) (hs : OpSafeCb env p c l.q o) :
    ∃ a c' l', stepCb env p o ⟨c, l⟩ = .ok (a, ⟨c', l'⟩) ∧ DInv c' l' ∧ (o.passing = true → Onward env p c c' l') := by
  cases o with
  | recv now m src =>
    obtain ⟨ret, c', l', e, n, k⟩ := inMsgCb_ok hp.answer hp.conflict (now := now) (src := src) h hs
    exact ⟨_, c', l', (M.bind_ok e).trans rfl, n, fun hq => ⟨c, l, rfl, k hq⟩⟩
  | send now =>
    obtain ⟨r, c', l', e, n⟩ := outMsgCb_ok hp.answer h now hs
    exact ⟨_, c', l', (M.bind_ok e).trans rfl, n.inv, fun _ => n⟩
  | _ =>
    rw [stepCb_other env p rfl]
    obtain ⟨a, c', l', e, n⟩ := step_ok (env := env) h _ (hs.other rfl)
    exact ⟨a, c', l', e, n.inv h, fun hq => by cases hq⟩

theorem Rep.stepCb {env : Env} {p : Callbacks} (hp : p.Sound env) {d : D Ptrs} {l : Lists} (h : Rep d l) (o : Op)
    (hs : OpSafeCb env p d.c d.q.walk o) : ∃ a d' l', Mdns.stepCb env p o d = .ok (a, d') ∧ Rep d' l' ∧ (o.passing = true → Onward env p d.c d'.c l') := by
  rw [h.rq.walk] at hs
  obtain ⟨a, c', l', e, n, k⟩ := stepCb_ok hp h.inv o hs
  obtain ⟨p', e', hr⟩ := Sim.stepCb env p o d.q l d.c h.rq a c' l' e
  exact ⟨a, ⟨c', p'⟩, l', e', ⟨hr, n⟩, k⟩

theorem ReachCb.rep {env : Env} {p : Callbacks} (hp : p.Sound env) {d : D Ptrs} (h : ReachCb env p d) : ∃ l, Rep d l := by
  induction h with
  | new cls frame now => exact ⟨_, newD_rep cls frame now⟩
  | step _ hs e ih =>
    obtain ⟨l, hr⟩ := ih
    obtain ⟨a', d'', l', e', hr', _⟩ := hr.stepCb hp _ hs
    rw [e] at e'
    cases e'
    exact ⟨l', hr'⟩

/-- C108: callbacks may call the library.  Answer callbacks and the one for received records may publish, change and withdraw any records, set addresses and register and end queries;
conflict callbacks may do so too but for records of the name in question that are still being probed.  Then receiving a packet is defined and
terminates, and so is every other call; if no answer callback both ends a query for the name it is told of with `mdnsd_query` and returns -1.  For
making a packet, `OpSafeCb` says that answer callbacks told that a record is gone end no queries for names with its hash, or that no query that was
asked three times finds expired records. -/
theorem C108_safe_partial {env : Env} {p : Callbacks} (hp : p.Sound env) {d : D Ptrs} (h : ReachCb env p d) :
    (∀ now m src, (∀ a ∈ m.an, a.WF) → ∃ a d', stepCb env p (.recv now m src) d = .ok (a, d')) ∧
      ∀ o, OpSafeCb env p d.c d.q.walk o → ∃ a d', stepCb env p o d = .ok (a, d') := by
  obtain ⟨l, hr⟩ := h.rep hp
  have key : ∀ o, OpSafeCb env p d.c d.q.walk o → ∃ a d', stepCb env p o d = .ok (a, d') := by
    intro o hs
    obtain ⟨a, d', _, e, _⟩ := hr.stepCb hp o hs
    exact ⟨a, d', e⟩
  exact ⟨fun now m src hw => key (.recv now m src) hw, key⟩

/-- C108: the queues hold records that there are, each once and in one queue at most, whatever the callbacks do; the queue of records being probed
holds exactly those; and the records under a name are each there once, and of a name with its hash. -/
theorem C108_queues_partial {env : Env} {p : Callbacks} (hp : p.Sound env) {d : D Ptrs} (h : ReachCb env p d) :
    (∀ w, (d.q.walk w).Nodup ∧ ∀ r ∈ d.q.walk w, (d.c.recs r).isSome) ∧
      (∀ v w r, r ∈ d.q.walk v → r ∈ d.q.walk w → v = w) ∧
      (∀ r x, d.c.recs r = some x → (r ∈ d.q.walk .probing ↔ x.unique ≠ 0 ∧ x.unique < 5)) ∧
      ∀ i, (d.c.published i).Nodup ∧ ∀ r ∈ d.c.published i, ∃ x, d.c.recs r = some x ∧ bucket x.rr.name sprime = i := by
  obtain ⟨l, hr⟩ := h.rep hp
  rw [hr.rq.walk]
  exact ⟨fun w => ⟨hr.inv.rinv.nodup w, fun r m => hr.inv.rinv.qlive w r m⟩, fun v w r => hr.inv.rinv.disj v w r,
    fun r x hx => hr.inv.rinv.probing r x hx, fun i => ⟨hr.inv.rinv.pnodup i, fun r m => hr.inv.rinv.pub i r m⟩⟩

/-- C108: an answer callback is called only for a record of the name and type it is registered for at that moment (or for all types), whatever other
callbacks did before. -/
theorem C108_told_partial {env : Env} {p : Callbacks} (hp : p.Sound env) {d : D Ptrs} (h : ReachCb env p d) {pre post : List Event} {q cb : Nat}
    {rr : Answer} (hl : d.c.log = pre ++ .answer q cb rr :: post) :
    callback pre rr.name rr.type = some cb ∨ callback pre rr.name 255 = some cb := by
  obtain ⟨l, hr⟩ := h.rep hp
  obtain ⟨t, h1, h2⟩ := hr.inv.cinv.tlog pre q cb rr post hl
  rcases h1 with rfl | rfl
  · exact .inl h2
  · exact .inr h2

/-- C108: an answer is cached whatever the callbacks do: the records of the cache afterwards are those that there would be without any callbacks. -/
theorem C108_cached_partial {env : Env} {p : Callbacks} (hp : p.Sound env) {d : D Ptrs} (h : ReachCb env p d) {src : Addr} {a : Resource}
    (ha : a.WF) (did : Bool) : ∃ did' d', inAnswerCb env p src a did d = .ok (did', d') ∧
      (∀ j, j ≠ bucket a.name lprime → d'.c.rrs j = d.c.rrs j) ∧
      (d'.c.rrs (bucket a.name lprime) = d.c.taken a src (d.c.rrs (bucket a.name lprime)) ∨
        (∃ r, d.c.rival a = some r) ∧ d'.c.rrs (bucket a.name lprime) = d.c.rrs (bucket a.name lprime)) := by
  obtain ⟨l, hr⟩ := h.rep hp
  obtain ⟨did', c', l', e, n⟩ := inAnswerCb_ok hp.answer hp.conflict (src := src) (did := did) hr.inv ha
  obtain ⟨p', e', _⟩ := Sim.inAnswerCb env p src a did d.q l d.c hr.rq did' c' l' e
  exact ⟨did', ⟨c', p'⟩, e', n.other, n.self⟩

/-- C108: removing the expired records from the whole cache removes exactly the expired ones, whatever the callbacks do that are told of it. -/
theorem C108_expiry_partial {env : Env} {p : Callbacks} (hp : p.Sound env) {d : D Ptrs} (h : ReachCb env p d) :
    ∃ d', gcCb env p d = .ok ((), d') ∧ ∀ i < lprime, d'.c.rrs i = (d.c.rrs i).filter fun a => decide (d.c.now.sec < a.ttl) := by
  obtain ⟨l, hr⟩ := h.rep hp
  obtain ⟨c', l', e, _, n⟩ := gcCb_ok (env := env) hp.answer hr.inv
  obtain ⟨p', e', _⟩ := Sim.gcCb env p d.q l d.c hr.rq () c' l' e
  exact ⟨⟨c', p'⟩, e', n⟩

/-! ### What callbacks do is done -/

/-- Callbacks that withdraw no records of a name: they call none of the functions that withdraw records on their own either
(`records_clear` and those that set the addresses of the host). -/
structure Callbacks.Spares (p : Callbacks) (host : Bytes) : Prop where
  conflict : p.conflict.Spares host
  mild : ∀ c, ∀ f ∈ p.answer c, ∀ c' l', DInv c' l' → (f c').considerate host c'
  answer : ∀ c, ∀ f ∈ p.answer c, ∀ (c' : Core) s x, f c' = .done s → c'.recs s = some x → x.rr.name ≠ host
  mild' : ∀ c, ∀ f ∈ p.receive c, ∀ c' l', DInv c' l' → (f c').considerate host c'
  receive : ∀ c, ∀ f ∈ p.receive c, ∀ (c' : Core) s x, f c' = .done s → c'.recs s = some x → x.rr.name ≠ host

/-- The calls that a callback makes, for the event that is its call. -/
def Callbacks.on (p : Callbacks) (c : Core) : Event → List (Core → Op)
  | .answer _ _ _ => p.answer c
  | .received _ => p.receive c
  | .conflict _ n t => p.conflict n t c
  | _ => []

theorem Makes.keeps {env : Env} {host : Bytes} {fs : List (Core → Op)} {c c' : Core} {l l' : Lists} (n : Makes env fs c l c' l')
    (hm : ∀ f ∈ fs, ∀ c' l', DInv c' l' → (f c').considerate host c')
    (hf : ∀ f ∈ fs, ∀ (c' : Core) s x, f c' = .done s → c'.recs s = some x → x.rr.name ≠ host) {s : Nat} {x : Rec} (hx : c.recs s = some x)
    (hn : x.rr.name = host) : ∃ x', c'.recs s = some x' ∧ Retains x x' := by
  induction n generalizing x with
  | nil => exact ⟨x, hx, .refl x⟩
  | @cons f fs a c c1 c' l l1 l' i hi n _ ih =>
    obtain ⟨y, hy, k⟩ := (n.deed i (hm f (by simp) c l i)).1.keeps i.rinv hx fun e => hf f (by simp) c s x e hx hn
    obtain ⟨z, hz, k'⟩ := ih (fun g m => hm g (by simp [m])) (fun g m => hf g (by simp [m])) hy (k.name.trans hn)
    exact ⟨z, hz, k.trans k'⟩

theorem Makes.made {env : Env} {host : Bytes} {type ttl cf : Nat} {fs : List (Core → Op)} {c c' : Core} {l l' : Lists}
    (n : Makes env fs c l c' l') (hm : ∀ f ∈ fs, ∀ c' l', DInv c' l' → (f c').considerate host c')
    (hf : ∀ f ∈ fs, ∀ (c' : Core) s x, f c' = .done s → c'.recs s = some x → x.rr.name ≠ host)
    (hq : ∃ f ∈ fs, ∀ c', f c' = .unique host type ttl (some cf)) :
    ∃ s x, c'.recs s = some x ∧ Retains (uniqueRec host type ttl (some cf)) x := by
  induction n with
  | nil =>
    obtain ⟨f, m, _⟩ := hq
    cases m
  | @cons f fs a c c1 c' l l1 l' i hi n n' ih =>
    obtain ⟨g, m, hg⟩ := hq
    rcases List.mem_cons.mp m with rfl | m
    · rw [hg] at n
      cases n
      obtain ⟨z, hz, k⟩ := n'.keeps (host := host) (fun g m => hm g (by simp [m])) (fun g m => hf g (by simp [m])) (s := l.size)
        (x := uniqueRec host type ttl (some cf)) (upd_same ..) rfl
      exact ⟨_, z, hz, k⟩
    · exact ih (fun g m => hm g (by simp [m])) (fun g m => hf g (by simp [m])) ⟨g, m, hg⟩

theorem Reacts.mute {env : Env} {n : Bytes} {fs : List (Core → Op)} {c c' : Core} {l l' : Lists} (n : Reacts env n fs c l c' l') :
    MuteLog c.log c'.log := by
  induction n with
  | nil => exact .refl _
  | cons i hc n _ ih => exact (n.mute i hc.inner).trans ih

theorem MuteLog.grows {a b : List Event} (h : MuteLog a b) : ∃ evs, b = a ++ evs := by
  obtain ⟨evs, e, _⟩ := h
  exact ⟨evs, e⟩

theorem Course.log {env : Env} {p : Callbacks} {c c' : Core} {l l' : Lists} (n : Course env p c l c' l') : ∃ evs, c'.log = c.log ++ evs := by
  induction n with
  | nil _ => exact ⟨[], by simp⟩
  | quiet _ _ h _ ih =>
    obtain ⟨e1, h1⟩ := h.grows
    obtain ⟨e2, h2⟩ := ih
    exact ⟨e1 ++ e2, by rw [h2, h1]; simp⟩
  | @answer _ _ _ _ _ _ q cb rr _ n1 _ ih =>
    obtain ⟨e1, h1⟩ := n1.mute.grows
    obtain ⟨e2, h2⟩ := ih
    exact ⟨.answer q cb rr :: (e1 ++ e2), by rw [h2, h1]; simp [Core.heard]⟩
  | @received _ _ _ _ _ _ a _ n1 _ ih =>
    obtain ⟨e1, h1⟩ := n1.mute.grows
    obtain ⟨e2, h2⟩ := ih
    exact ⟨.received a :: (e1 ++ e2), by rw [h2, h1]; simp [Core.heard]⟩
  | @conflict _ _ _ _ _ _ r x _ _ _ n1 _ _ _ _ ih =>
    obtain ⟨e1, h1⟩ := n1.mute.grows
    obtain ⟨e2, h2⟩ := ih
    rw [doneSt_log] at h2
    exact ⟨.conflict r x.rr.name x.rr.type :: (e1 ++ e2), by rw [h2, h1]; simp [Core.heard]⟩

/-- The events behind a part without calls. -/
theorem mute_split {a b c evs : List Event} (h : MuteLog a b) (hc : c = a ++ evs) (hp : ∃ e2, c = b ++ e2) :
    ∃ e2, c = b ++ e2 ∧ ∀ e, ¬ e.Mute → (e ∈ evs ↔ e ∈ e2) := by
  obtain ⟨e1, rfl, h1⟩ := h
  obtain ⟨e2, rfl⟩ := hp
  have : evs = e1 ++ e2 := by
    rw [List.append_assoc] at hc
    exact (List.append_cancel_left hc).symm
  subst this
  refine ⟨e2, rfl, fun e hm => ?_⟩
  rw [List.mem_append]
  exact ⟨fun h => h.elim (fun m => absurd (h1 _ m) hm) id, .inr⟩

/-- The events behind the call of a callback. -/
theorem call_split {c : Core} {ev : Event} {b d evs : List Event} (h : MuteLog (c.heard [ev]).log b) (hd : d = c.log ++ evs) (hp : ∃ e2, d = b ++ e2) :
    ∃ e2, d = b ++ e2 ∧ ∀ e, ¬ e.Mute → (e ∈ evs ↔ e = ev ∨ e ∈ e2) := by
  obtain ⟨e0, h0⟩ : ∃ e0, d = (c.heard [ev]).log ++ e0 := by
    obtain ⟨e1, h1⟩ := h.grows
    obtain ⟨e2, h2⟩ := hp
    exact ⟨e1 ++ e2, by rw [h2, h1]; simp⟩
  obtain ⟨e2, h2, h3⟩ := mute_split h h0 hp
  have : evs = ev :: e0 := by
    rw [hd] at h0
    simp only [Core.heard, List.append_assoc] at h0
    exact List.append_cancel_left h0
  subst this
  exact ⟨e2, h2, fun e he => by rw [List.mem_cons, h3 e he]⟩

theorem Course.keeps {env : Env} {p : Callbacks} {host : Bytes} (hs : p.Spares host) {c c' : Core} {l l' : Lists} (n : Course env p c l c' l')
    {evs : List Event} (he : c'.log = c.log ++ evs) {s : Nat} {x : Rec} (hx : c.recs s = some x) (hn : x.rr.name = host)
    (hno : ∀ t, Event.conflict s host t ∉ evs) : ∃ x', c'.recs s = some x' ∧ Retains x x' := by
  induction n generalizing evs x with
  | nil _ => exact ⟨x, hx, .refl x⟩
  | quiet _ h1 h2 n ih =>
    obtain ⟨e2, k2, k3⟩ := mute_split h2 he n.log
    exact ih k2 (by rw [h1]; exact hx) hn fun t m => hno t ((k3 _ id).mpr m)
  | @answer c0 c1 c2 l0 l1 l2 q cb rr i n1 n ih =>
    obtain ⟨e2, k2, k3⟩ := call_split n1.mute he n.log
    obtain ⟨z, hz, k⟩ := n1.keeps (hs.mild _) (hs.answer _) (s := s) (x := x) hx hn
    obtain ⟨w, hw, k'⟩ := ih k2 hz (k.name.trans hn) fun t m => hno t ((k3 _ id).mpr (.inr m))
    exact ⟨w, hw, k.trans k'⟩
  | @received c0 c1 c2 l0 l1 l2 a i n1 n ih =>
    obtain ⟨e2, k2, k3⟩ := call_split n1.mute he n.log
    obtain ⟨z, hz, k⟩ := n1.keeps (hs.mild' _) (hs.receive _) (s := s) (x := x) hx hn
    obtain ⟨w, hw, k'⟩ := ih k2 hz (k.name.trans hn) fun t m => hno t ((k3 _ id).mpr (.inr m))
    exact ⟨w, hw, k.trans k'⟩
  | @conflict c0 c1 c2 l0 l1 l2 r y y1 i hy n1 i1 hy1 hn1 n ih =>
    obtain ⟨e2, k2, k3⟩ := call_split (b := (doneSt c1 l1 r y1).c.log) (by rw [doneSt_log]; exact n1.mute) he n.log
    obtain ⟨z, hz, k⟩ := n1.keeps (host := host) (fun f m => hs.conflict _ _ _ f m) (s := s) (x := x) hx hn
    have ne : s ≠ r := by
      intro e
      subst e
      rw [hx] at hy
      cases hy
      exact hno y.rr.type ((k3 _ id).mpr (.inl (by rw [hn])))
    obtain ⟨z', hz', k'⟩ := (doneSt_deed (l := l1) hy1).keeps i1.rinv hz fun e => by cases e; exact ne rfl
    obtain ⟨w, hw, k''⟩ := ih k2 hz' ((k.trans k').name.trans hn) fun t m => hno t ((k3 _ id).mpr (.inr m))
    exact ⟨w, hw, (k.trans k').trans k''⟩

theorem Course.made {env : Env} {p : Callbacks} {host : Bytes} (hs : p.Spares host) {c c' : Core} {l l' : Lists} (n : Course env p c l c' l')
    {evs : List Event} (he : c'.log = c.log ++ evs) {ev : Event} {type ttl cf : Nat} (hm : ev ∈ evs)
    (hq : ∀ c log, c.log = log ++ [ev] → ∃ f ∈ p.on c ev, ∀ c', f c' = .unique host type ttl (some cf))
    (hno : ∀ s t, Event.conflict s host t ∉ evs) : ∃ s x, c'.recs s = some x ∧ Retains (uniqueRec host type ttl (some cf)) x := by
  have hv : ¬ ev.Mute := by
    obtain ⟨f, m, _⟩ := hq { c with log := [ev] } [] rfl
    intro hv
    cases ev <;> first | exact hv.elim | cases m
  induction n generalizing evs with
  | @nil c _ _ =>
    have : evs = [] := by
      have := congrArg List.length he
      simpa using this
    subst this
    cases hm
  | quiet _ _ h2 n ih =>
    obtain ⟨e2, k2, k3⟩ := mute_split h2 he n.log
    exact ih k2 ((k3 _ hv).mp hm) fun s t m => hno s t ((k3 _ id).mpr m)
  | @answer c0 c1 c2 l0 l1 l2 q0 cb0 rr0 i n1 n ih =>
    obtain ⟨e2, k2, k3⟩ := call_split n1.mute he n.log
    have hno2 : ∀ s t, Event.conflict s host t ∉ e2 := fun s t m => hno s t ((k3 _ id).mpr (.inr m))
    rcases (k3 _ hv).mp hm with h | hm'
    · cases h
      obtain ⟨s, z, hz, k⟩ := n1.made (hs.mild _) (hs.answer _) (hq _ c0.log rfl)
      obtain ⟨w, hw, k'⟩ := n.keeps hs k2 hz k.name fun t => hno2 s t
      exact ⟨s, w, hw, k.trans k'⟩
    · exact ih k2 hm' hno2
  | @received c0 c1 c2 l0 l1 l2 a i n1 n ih =>
    obtain ⟨e2, k2, k3⟩ := call_split n1.mute he n.log
    have hno2 : ∀ s t, Event.conflict s host t ∉ e2 := fun s t m => hno s t ((k3 _ id).mpr (.inr m))
    rcases (k3 _ hv).mp hm with h | hm'
    · cases h
      obtain ⟨s, z, hz, k⟩ := n1.made (hs.mild' _) (hs.receive _) (hq _ c0.log rfl)
      obtain ⟨w, hw, k'⟩ := n.keeps hs k2 hz k.name fun t => hno2 s t
      exact ⟨s, w, hw, k.trans k'⟩
    · exact ih k2 hm' hno2
  | @conflict c0 c1 c2 l0 l1 l2 r y y1 i hy n1 i1 hy1 hn1 n ih =>
    obtain ⟨e2, k2, k3⟩ := call_split (b := (doneSt c1 l1 r y1).c.log) (by rw [doneSt_log]; exact n1.mute) he n.log
    have hno2 : ∀ s t, Event.conflict s host t ∉ e2 := fun s t m => hno s t ((k3 _ id).mpr (.inr m))
    rcases (k3 _ hv).mp hm with h | hm'
    · cases h
      obtain ⟨s, z, hz, k⟩ := n1.made (fun f m => hs.conflict _ _ _ f m) (hq _ c0.log rfl)
      have ne : s ≠ r := by
        intro e
        subst e
        rw [hz] at hy1
        cases hy1
        exact hno s y.rr.type ((k3 _ id).mpr (.inl (by rw [← hn1, k.name]; rfl)))
      obtain ⟨z', hz', k'⟩ := (doneSt_deed (l := l1) hy1).keeps i1.rinv hz fun e => by cases e; exact ne rfl
      obtain ⟨w, hw, k''⟩ := n.keeps hs k2 hz' (k.trans k').name fun t => hno2 s t
      exact ⟨s, w, hw, (k.trans k').trans k''⟩
    · exact ih k2 hm' hno2

/-- C108: a callback that publishes a unique record, whether it is called for an answer, for a received record or for a conflict, gets it: after the
call, receiving a response or making a packet, the record is there and is being probed, with the name, type, lifetime and callback given; if no
callback withdraws records of that name and no conflict is reported for it within the same call. -/
theorem C108_published_partial {env : Env} {p : Callbacks} (hp : p.Sound env) {d d' : D Ptrs} (h : ReachCb env p d) {o : Op} (ho : o.passing = true)
    (hs : OpSafeCb env p d.c d.q.walk o) {a : OpOut} (e : stepCb env p o d = .ok (a, d')) {evs : List Event} (he : d'.c.log = d.c.log ++ evs)
    {ev : Event} (hm : ev ∈ evs) {host : Bytes} {type ttl cf : Nat} (hk : p.Spares host)
    (hq : ∀ c log, c.log = log ++ [ev] → ∃ f ∈ p.on c ev, ∀ c', f c' = .unique host type ttl (some cf))
    (hno : ∀ s t, Event.conflict s host t ∉ evs) :
    ∃ s x, d'.c.recs s = some x ∧ x.rr.name = host ∧ x.rr.type = type ∧ x.rr.ttl = ttl ∧ x.conflict = some cf ∧ x.unique = 1 ∧
      s ∈ d'.q.walk .probing := by
  obtain ⟨l, hr⟩ := h.rep hp
  obtain ⟨a', d'', l', e', hr', hn⟩ := hr.stepCb hp o hs
  rw [e] at e'
  cases e'
  obtain ⟨c0, l0, hl, n⟩ := hn ho
  obtain ⟨s, x, hx, k⟩ := n.made hk (by rw [hl]; exact he) hm hq hno
  refine ⟨s, x, hx, k.name, k.type, k.ttl, k.conflict, k.unique, ?_⟩
  rw [hr'.rq.walk, hr'.inv.rinv.probing s x hx, k.unique]
  exact ⟨by simp [uniqueRec], by simp [uniqueRec]⟩

/-- C108: for queries, which call no other callbacks than those for conflicts, receiving a packet is that of C106. -/
theorem C108_asked {Q : Type} [QOps Q] (env : Env) (p : Callbacks) (now : TV) {m : Msg} (hq : m.header.qr = false) (src : Addr) :
    (stepCb env p (.recv now m src) : M Q OpOut) = stepR env p.conflict (.recv now m src) := by
  unfold stepCb stepR inMsgCb inMsgR
  simp only [hq, Bool.not_false, if_true]

/-- C108: and a conflict callback called for a query that publishes a unique record gets it as well. -/
theorem C108_renamed_partial {env : Env} {p : Callbacks} (hp : p.Sound env) {d d' : D Ptrs} (h : ReachCb env p d) {now : TV} {m : Msg} {src : Addr}
    (hqr : m.header.qr = false) (hw : ∀ a ∈ m.an, a.WF) {a : OpOut} (e : stepCb env p (.recv now m src) d = .ok (a, d')) {evs : List Event}
    (he : d'.c.log = d.c.log ++ evs) {r t : Nat} {name : Bytes} (hm : Event.conflict r name t ∈ evs) {host : Bytes} {type ttl cf : Nat}
    (hk : p.conflict.Spares host) (hq : ∀ c, ∃ f ∈ p.conflict name t c, ∀ c', f c' = .unique host type ttl (some cf))
    (hno : ∀ s t, Event.conflict s host t ∉ evs) :
    ∃ s x, d'.c.recs s = some x ∧ x.rr.name = host ∧ x.rr.type = type ∧ x.rr.ttl = ttl ∧ x.conflict = some cf ∧ x.unique = 1 ∧
      s ∈ d'.q.walk .probing := by
  obtain ⟨l, hr⟩ := h.rep hp
  rw [C108_asked env p now hqr] at e
  obtain ⟨a', d'', l', e', hr', hn⟩ := hr.stepR hp.conflict (.recv now m src) hw
  rw [e] at e'
  cases e'
  obtain ⟨s, x, hx, k⟩ := (hn rfl).made hk he hm hq hno
  refine ⟨s, x, hx, k.name, k.type, k.ttl, k.conflict, k.unique, ?_⟩
  rw [hr'.rq.walk, hr'.inv.rinv.probing s x hx, k.unique]
  exact ⟨by simp [uniqueRec], by simp [uniqueRec]⟩

/-! ### Where only one kind of callback makes calls -/

theorem inAnswerCb_query {Q : Type} [QOps Q] (env : Env) (p : Prog) (src : Addr) (a : Resource) (did : Bool) :
    (inAnswerCb env (p.with noReaction) src a did : M Q Bool) = inAnswerE env p src a did := by
  unfold inAnswerCb inAnswerE
  simp only [inRestCb_query]
  have : (p.with noReaction).conflict = noReaction := rfl
  simp only [this, conflictR_plain]
  rfl

theorem inAnswersCb_query {Q : Type} [QOps Q] (env : Env) (p : Prog) (src : Addr) : ∀ (l : List Resource) (did : Bool),
    (inAnswersCb env (p.with noReaction) src l did : M Q Unit) = inAnswersE env p src l did
  | [], _ => rfl
  | a :: rest, did => by
    unfold inAnswersCb inAnswersE
    simp only [inAnswerCb_query, inAnswersCb_query env p src rest]

/-- C108: with answer callbacks that only call `mdnsd_query` and conflict callbacks that make no calls, this is what C104 and C105 are about. -/
theorem C108_ending {Q : Type} [QOps Q] (env : Env) (p : Prog) (o : Op) : (stepCb env (p.with noReaction) o : M Q OpOut) = stepE env p o := by
  cases o with
  | recv now m src =>
    unfold stepCb stepE inMsgCb inMsgE
    have : (p.with noReaction).conflict = noReaction := rfl
    simp only [inAnswersCb_query, this, inQuestionsR_plain]
  | send now =>
    unfold stepCb stepE
    simp only [outMsgCb_query]
  | _ => rfl

theorem inAnswerCb_reacting {Q : Type} [QOps Q] {env : Env} {p : Prog} (hp : p.Plain) (he : p.Serves env) (r : Reaction) (src : Addr) (a : Resource)
    (did : Bool) : (inAnswerCb env (p.with r) src a did : M Q Bool) = inAnswerR env r src a did := by
  have h : (inAnswerE.rest p src a : M Q Unit) = inAnswer.rest env src a := by
    unfold inAnswerE.rest inAnswer.rest
    simp only [cacheInE_plain hp he]
  unfold inAnswerCb inAnswerR
  simp only [inRestCb_query, h]
  rfl

theorem inAnswersCb_reacting {Q : Type} [QOps Q] {env : Env} {p : Prog} (hp : p.Plain) (he : p.Serves env) (r : Reaction) (src : Addr) :
    ∀ (l : List Resource) (did : Bool), (inAnswersCb env (p.with r) src l did : M Q Unit) = inAnswersR env r src l did
  | [], _ => rfl
  | a :: rest, did => by
    unfold inAnswersCb inAnswersR
    simp only [inAnswerCb_reacting hp he, inAnswersCb_reacting hp he r src rest]

/-- C108: with answer callbacks that only register queries, this is what C106 is about. -/
theorem C108_reacting {Q : Type} [QOps Q] {env : Env} {p : Prog} (hp : p.Plain) (he : p.Serves env) (r : Reaction) (o : Op) :
    (stepCb env (p.with r) o : M Q OpOut) = stepR env r o := by
  cases o with
  | recv now m src =>
    unfold stepCb stepR inMsgCb inMsgR
    have : (p.with r).conflict = r := rfl
    simp only [inAnswersCb_reacting hp he, this]
  | send now =>
    unfold stepCb
    simp only [outMsgCb_query, outMsgE_plain hp he]
    rfl
  | _ => rfl

/-! ### Concrete cases -/

namespace Sample

/-- The last event is the call of an answer callback. -/
def lastTold (n : Nat) (l : List Event) : Bool := match l.getLast? with
  | some (.answer _ cb _) => cb == n
  | _ => false

/-- The last event is the call of an answer callback for a record that is gone. -/
def toldGone (n : Nat) (l : List Event) : Bool := match l.getLast? with
  | some (.answer _ cb rr) => cb == n && rr.ttl == 0
  | _ => false

/-- Calls one after the other. -/
def traceCb (env : Env) (p : Callbacks) : List Op → D Ptrs → Res (Unit × D Ptrs)
  | [], d => .ok ((), d)
  | o :: os, d => match stepCb env p o d with
    | .ok (_, d') => traceCb env p os d'
    | .ub => .ub
    | .hang => .hang

def afterCb (x : Res (Unit × D Ptrs)) : D Ptrs := match x with
  | .ok (_, d) => d
  | _ => fresh

/-- The caller sees to what is needed for each call. -/
def safeCb (env : Env) (p : Callbacks) : List Op → D Ptrs → Bool
  | [], _ => true
  | o :: os, d => opSafeB d o && match stepCb env p o d with
    | .ok (_, d') => safeCb env p os d'
    | _ => false

theorem safeCb_reach {env : Env} (hk : env.KeepOnExpiry) {p : Callbacks} (hc : p.Careful) : ∀ {os : List Op} {d : D Ptrs}, ReachCb env p d →
    safeCb env p os d = true → ReachCb env p (afterCb (traceCb env p os d))
  | [], _, h, _ => h
  | o :: os, d, h, hs => by
    unfold safeCb at hs
    rw [Bool.and_eq_true] at hs
    have ho : OpSafeCb env p d.c d.q.walk o := by
      cases o with
      | send now => exact .inl hc
      | _ => exact opSafeB_sound hk hs.1
    unfold traceCb
    cases e : stepCb env p o d with
    | ok x =>
      rw [e] at hs
      exact safeCb_reach hk hc (.step h ho e) hs.2
    | ub => rw [e] at hs; cases hs.2
    | hang => rw [e] at hs; cases hs.2

/-- Told of a service instance, the answer callback asks for its address and publishes a record of its own; it goes on asking for instances.  The
conflict callback is the one from above. -/
def announcer : Callbacks where
  answer c := if lastTold 7 c.log then [fun _ => .query (nm 98) 1 (some 8), fun _ => .unique (nm 99) 1 120 (some 1)] else []
  stop _ _ := false
  conflict := renamer

theorem announcer_answer {c : Core} {f : Core → Op} (m : f ∈ announcer.answer c) :
    (f = fun _ => .query (nm 98) 1 (some 8)) ∨ f = fun _ => .unique (nm 99) 1 120 (some 1) := by
  unfold announcer at m
  dsimp only at m
  split at m
  · simpa using m
  · cases m

theorem announcer_sound : announcer.Sound quiet where
  answer :=
    { lawful := fun c f m c' l i => by
        rcases announcer_answer m with rfl | rfl
        · exact ⟨rfl, trivial⟩
        · exact ⟨rfl, rfl⟩
      received := fun c f m => by cases m
      once := fun c log q cb rr _ c' h => by cases h }
  conflict := renamer_considerate

theorem announcer_careful : announcer.Careful := by
  intro c log q cb rr _ _
  refine ⟨fun _ => rfl, fun f m c'' n _ => ?_⟩
  rcases announcer_answer m with rfl | rfl
  · exact fun t e => by cases e
  · exact fun t e => by cases e

theorem announcer_spares : announcer.Spares (nm 99) where
  conflict := renamer_spares _
  mild := fun c f m c' l i => by rcases announcer_answer m with rfl | rfl <;> first | trivial | rfl
  answer := fun c f m c' s x e => by rcases announcer_answer m with rfl | rfl <;> cases e
  mild' := fun c f m => by cases m
  receive := fun c f m => by cases m

/-- A query for service instances, and a record that is in use. -/
def occupiedOps : List Op := opsA ++ [.send (at_ 101), .send (at_ 102), .send (at_ 103), .send (at_ 104), .query (nm 97) 12 (some 7)]

def occupied : D Ptrs := afterCb (traceCb quiet announcer occupiedOps fresh)

theorem occupied_reach : ReachCb quiet announcer occupied :=
  safeCb_reach quiet_keeps announcer_careful (.new 1 1500 (at_ 100)) (by decide +kernel)

/-- A response with a service instance and with our address, but from another host. -/
def news : Msg := { ptrMsg 10 with an := (ptrMsg 10).an ++ (knows 1 [10, 0, 0, 1]).an }

theorem news_wf : ∀ a ∈ news.an, a.WF :=
  opSafeB_sound (o := .recv (at_ 110) news other) quiet_keeps (d := occupied) (by decide +kernel)

/-- C108: both callbacks are called for one packet, and what both publish is there and being probed. -/
example : shownRecs (after1 (stepCb quiet announcer (.recv (at_ 110) news other) occupied)) =
      [(nm 97, 1, 0, #v[10, 0, 0, 1]), (nm 99, 1, 120, #v[0, 0, 0, 0]), (nm 98, 1, 120, ipA)] ∧
    (after1 (stepCb quiet announcer (.recv (at_ 110) news other) occupied)).q.walk .probing = [2, 1] ∧
    conflictsOf 0 (after1 (stepCb quiet announcer (.recv (at_ 110) news other) occupied)).c.log = 1 := by decide +kernel

/-- C108: the hypotheses of `C108_published_partial` hold there. -/
example : ∃ a d' evs q rr, stepCb quiet announcer (.recv (at_ 110) news other) occupied = .ok (a, d') ∧ d'.c.log = occupied.c.log ++ evs ∧
    Event.answer q 7 rr ∈ evs ∧
    (∀ c log, c.log = log ++ [.answer q 7 rr] → ∃ f ∈ announcer.on c (.answer q 7 rr), ∀ c', f c' = .unique (nm 99) 1 120 (some 1)) ∧
    ∀ s t, Event.conflict s (nm 99) t ∉ evs := by
  obtain ⟨a, d', e⟩ := (C108_safe_partial announcer_sound occupied_reach).1 (at_ 110) news other news_wf
  have hl : (∃ q rr, Event.answer q 7 rr ∈ (after1 (stepCb quiet announcer (.recv (at_ 110) news other) occupied)).c.log) ∧
      ∀ e ∈ (after1 (stepCb quiet announcer (.recv (at_ 110) news other) occupied)).c.log, (match e with
        | .conflict _ n _ => decide (n ≠ nm 99)
        | _ => true) = true := by
    refine ⟨?_, by decide +kernel⟩
    have : ((after1 (stepCb quiet announcer (.recv (at_ 110) news other) occupied)).c.log.any fun e => match e with
      | .answer _ 7 _ => true
      | _ => false) = true := by decide +kernel
    obtain ⟨e, m, he⟩ := List.any_eq_true.mp this
    split at he
    · exact ⟨_, _, m⟩
    · cases he
  have hb : occupied.c.log.all (fun e => match e with
    | .answer _ _ _ => false
    | _ => true) = true := by decide +kernel
  obtain ⟨c0, l0, h0, n⟩ : ∃ c0 l0, c0.log = occupied.c.log ∧ ∃ l', Course quiet announcer c0 l0 d'.c l' := by
    obtain ⟨l, hr⟩ := (occupied_reach).rep announcer_sound
    obtain ⟨a', d'', l', e', _, hn⟩ := hr.stepCb announcer_sound (.recv (at_ 110) news other) news_wf
    rw [e] at e'
    cases e'
    obtain ⟨c0, l0, h0, n⟩ := hn rfl
    exact ⟨c0, l0, h0, l', n⟩
  obtain ⟨l', n⟩ := n
  obtain ⟨evs, he⟩ := n.log
  rw [h0] at he
  rw [e] at hl
  obtain ⟨⟨q, rr, m⟩, hl⟩ := hl
  change Event.answer q 7 rr ∈ d'.c.log at m
  change ∀ e ∈ d'.c.log, _ at hl
  rw [he] at m hl
  refine ⟨a, d', evs, q, rr, e, he, ?_, fun c log h => ⟨_, ?_, fun _ => rfl⟩, fun s t m => ?_⟩
  · rcases List.mem_append.mp m with m | m
    · have := List.all_eq_true.mp hb _ m
      cases this
    · exact m
  · show _ ∈ ite (lastTold 7 c.log = true) _ _
    rw [h, if_pos (by simp [lastTold])]
    exact List.mem_cons_of_mem _ (List.mem_cons_self ..)
  · have := hl _ (List.mem_append_right _ m)
    simp at this

/-- C108: a record of the cache expires, its callback is told, and publishes: while a packet is made, with an announcement in it. -/
def lapsing : List Op :=
  [.query (nm 97) 12 (some 7), .recv (at_ 101) (ptrMsg 4) other, .send (at_ 102), .send (at_ 104), .send (at_ 105), .send (at_ 107), .send (at_ 111),
    .send (at_ 114)]

/-- A callback that publishes when a record is gone. -/
def mourner : Callbacks where
  answer c := if toldGone 7 c.log then [fun _ => .unique (nm 99) 1 120 (some 1)] else []
  stop _ _ := false
  conflict := noReaction

example : shownRecs (afterCb (traceCb quiet mourner lapsing fresh)) = [(nm 99, 1, 120, #v[0, 0, 0, 0])] ∧
    (afterCb (traceCb quiet mourner lapsing fresh)).q.walk .probing = [0] := by decide +kernel

/-- A callback for received records that publishes, asks and no longer wants to be called. -/
def fleeting : Callbacks where
  answer _ := []
  stop _ _ := false
  conflict := noReaction
  receive _ := [fun _ => .unique (nm 99) 1 120 (some 1), fun _ => .query (nm 97) 12 (some 7), fun _ => .receiveCallback false]

/-- C108: the record is there, and the answer callback it registered is told of the record it was called for. -/
example : shownRecs (afterCb (traceCb quiet fleeting [.receiveCallback true, .recv (at_ 101) news other] fresh)) = [(nm 99, 1, 120, #v[0, 0, 0, 0])] ∧
    (afterCb (traceCb quiet fleeting [.receiveCallback true, .recv (at_ 101) news other] fresh)).q.walk .probing = [0] ∧
    story (afterCb (traceCb quiet fleeting [.receiveCallback true, .recv (at_ 101) news other] fresh)) = [(7, 114)] := by decide +kernel

/-- A callback that withdraws a record whose handle it keeps although it withdrew it before. -/
def forgetful : Callbacks where
  answer c := if lastTold 7 c.log then [fun _ => .done 0] else []
  stop _ _ := false
  conflict := noReaction

/-- A callback that ends its own query and returns -1. -/
def hasty : Callbacks := (ender (nm 97) 12 false true).with noReaction

/-- A query, and a record that is being probed. -/
def eager : D Ptrs := (trace quiet [.query (nm 97) 12 (some 7), .unique (nm 97) 1 120 (some 1)] fresh).2

theorem eager_reach {p : Callbacks} : ReachCb quiet p eager :=
  .step (o := .unique (nm 97) 1 120 (some 1)) (.step (o := .query (nm 97) 12 (some 7)) (.new 1 1500 (at_ 100)) trivial rfl) rfl rfl

def isUbO {α : Type} (x : Res (α × D Ptrs)) : Bool := match x with
  | .ub => true
  | _ => false

theorem isUbO_of {α : Type} {x : Res (α × D Ptrs)} (h : isUbO x = true) : x = .ub := by
  cases x with
  | ub => rfl
  | ok _ => cases h
  | hang => cases h

end Sample

open Sample

/-- C108 is false in full: an answer callback that ends its query with `mdnsd_query` and then returns -1 has it ended twice
(`libmdnsd/mdnsd.c:491-492`). -/
theorem C108_twice_counterexample : ∃ d, ReachCb quiet hasty d ∧ stepCb quiet hasty (.recv (at_ 101) (ptrMsg 10) other) d = .ub :=
  ⟨eager, eager_reach, isUbO_of (by decide +kernel)⟩

/-- C108 is false in full: the library does not remember which records were withdrawn, so an answer callback that withdraws a record each time it is
told of an answer does so to a freed record. -/
theorem C108_again_counterexample : ∃ d, ReachCb quiet forgetful d ∧
    (∃ a d', stepCb quiet forgetful (.recv (at_ 101) (ptrMsg 10) other) d = .ok (a, d')) ∧
    stepCb quiet forgetful (.recv (at_ 101) { ptrMsg 10 with an := (ptrMsg 10).an ++ [⟨nm 97, 12, 1, 10, [], .name (nm 99)⟩] } other) d = .ub := by
  refine ⟨eager, eager_reach, ?_, isUbO_of (by decide +kernel)⟩
  have : (match stepCb quiet forgetful (.recv (at_ 101) (ptrMsg 10) other) eager with
    | .ok _ => true
    | _ => false) = true := by decide +kernel
  split at this
  · rename_i x h
    exact ⟨x.1, x.2, h⟩
  · cases this

/-- C108 is false in full: an answer callback told that a record is gone while a packet is made that ends its query (`libmdnsd/mdnsd.c:1425-1426`). -/
theorem C108_sending_counterexample : traceCb quiet ((ender (nm 97) 12 true false).with noReaction) lapsing fresh = .ub :=
  isUbO_of (by decide +kernel)

end Mdns
