import Verif.Model.Calling
import Verif.Lemmas.Reacting
import Verif.Props.Ended

/-!
# Callbacks that call the library: what their calls leave alone

A call inside of a callback changes no cached record but for the query it belongs to, and ends a query only if it asks for that.
-/

namespace Mdns

open M

/-- The functions a callback may call: those that neither receive nor make packets, nor ask for the time to wait. -/
def Op.inner : Op → Bool
  | .recv _ _ _ => false
  | .send _ => false
  | .sleep _ => false
  | .stepEnd => false
  | _ => true

/-- The call does not end a query for this name. -/
def Op.Spares (n : Bytes) (o : Op) : Prop := ∀ type, o ≠ .query n type none

/-- What a call inside of a callback leaves alone. -/
structure Goes (c c' : Core) : Prop where
  rrs : ∀ i, c'.rrs i = c.rrs i
  now : c'.now = c.now
  cls : c'.cls = c.cls

theorem Goes.refl (c : Core) : Goes c c := ⟨fun _ => rfl, rfl, rfl⟩

theorem Goes.trans {a b c : Core} (h : Goes a b) (h' : Goes b c) : Goes a c :=
  ⟨fun i => (h'.rrs i).trans (h.rrs i), h'.now.trans h.now, h'.cls.trans h.cls⟩

/-- Cache and queries are the same. -/
structure Aloof (c c' : Core) : Prop where
  cache : c'.cache = c.cache
  qs : c'.qs = c.qs
  qlist : c'.qlist = c.qlist
  now : c'.now = c.now
  cls : c'.cls = c.cls

theorem Aloof.of {c c' : Core} (e : c'.recfree = c.recfree) : Aloof c c' :=
  ⟨(congrArg Core.cache e : c'.recfree.cache = c.recfree.cache), (congrArg Core.qs e : c'.recfree.qs = c.recfree.qs),
    (congrArg Core.qlist e : c'.recfree.qlist = c.recfree.qlist), recfree_now e, recfree_cls e⟩

theorem Aloof.goes {c c' : Core} (h : Aloof c c') : Goes c c' := ⟨fun i => by unfold Core.rrs; rw [h.cache], h.now, h.cls⟩

theorem Aloof.unended {c c' : Core} (h : Aloof c c') (n : Bytes) : Unended n c c' :=
  ⟨fun q x hx hn => ⟨x, by rw [h.qs]; exact hx, hn⟩, fun i k a ha hn hq => ⟨a, by rw [h.cache]; exact ha, hn, hq⟩⟩

theorem Aloof.abides {c c' : Core} (h : Aloof c c') (q : Nat) (n : Bytes) : Abides q n c c' := by
  intro ⟨x, hx, hn⟩ m
  exact ⟨⟨x, by rw [h.qs]; exact hx, hn⟩, by rw [h.qlist]; exact m, by rw [h.qlist]; exact Nat.le_refl _⟩

/-- Functions other than `mdnsd_query` leave cache and queries alone. -/
theorem Did.apart {env : Env} {o : Op} {a : OpOut} {c c' : Core} {l l' : Lists} (n : Did env o c l a c' l') (h : o.inner = true)
    (hq : ∀ n t a, o ≠ .query n t a) : Aloof c c' := by
  cases n with
  | setFamily => exact ⟨rfl, rfl, rfl, rfl, rfl⟩
  | receiveCallback => exact ⟨rfl, rfl, rfl, rfl, rfl⟩
  | query e n => exact absurd rfl (hq _ _ _)
  | shared => exact ⟨rfl, rfl, rfl, rfl, rfl⟩
  | unique => exact ⟨rfl, rfl, rfl, rfl, rfl⟩
  | done hx => exact .of (doneSt_recfree ..)
  | setRaw hx => exact .of (setSt_recfree ..)
  | setHost hx => exact .of (setSt_recfree ..)
  | setIp hx => exact .of (setSt_recfree ..)
  | setIpv6 hx => exact .of (setSt_recfree ..)
  | setSrv hx => exact .of (setSt_recfree ..)
  | setAddress n =>
    cases n with
    | same _ => exact .of rfl
    | set _ _ n => exact { Aloof.of n.recfree with }
    | bye _ _ n => exact { Aloof.of n.recfree with }
  | setIpv6Address n =>
    cases n with
    | same _ => exact .of rfl
    | set _ _ n => exact { Aloof.of n.recfree with }
    | bye _ _ n => exact { Aloof.of n.recfree with }
  | shutdown _ n =>
    obtain ⟨n⟩ := n
    exact { Aloof.of n.recfree with }
  | recv _ _ => cases h
  | send _ => cases h
  | sleep _ => cases h
  | setAddresses n => exact .of n.recfree
  | setIpv6Addresses n => exact .of n.recfree
  | setInterface n => exact .of n.recfree
  | clear _ e _ _ _ => exact .of e
  | stepEnd => cases h

theorem Did.goes {env : Env} {o : Op} {a : OpOut} {c c' : Core} {l l' : Lists} (n : Did env o c l a c' l') (h : o.inner = true) : Goes c c' := by
  by_cases hq : ∀ n t a, o ≠ .query n t a
  · exact (n.apart h hq).goes
  · cases n with
    | query e n =>
      exact ⟨n.rrs, n.now, (congrArg Core.cls n.rest : c'.rest.cls = c.rest.cls)⟩
    | _ => exact absurd (fun _ _ _ h => by cases h) hq

/-- Queries for a name stay, whatever is called, unless it is asked for. -/
theorem Did.lasts {env : Env} {o : Op} {a : OpOut} {c c' : Core} {l l' : Lists} (n : Did env o c l a c' l') (i : DInv c l) (h : o.inner = true)
    {name : Bytes} (hn : o.Spares name) : Unended name c c' ∧ ∀ q, Abides q name c c' := by
  by_cases hq : ∀ n t a, o ≠ .query n t a
  · exact ⟨(n.apart h hq).unended _, fun q => (n.apart h hq).abides q _⟩
  · cases n with
    | @query host t a _ _ _ e n =>
      cases a with
      | none =>
        have hne : host ≠ name := fun e => hn t (by rw [e])
        exact ⟨i.cinv.queryOff_unended hne e, fun q => i.cinv.queryOff_abides hne e⟩
      | some cb =>
        obtain ⟨c2, e2, n2, _⟩ := i.cinv.queryOn host t cb
        rw [e] at e2
        cases e2
        exact ⟨n2.unended name, fun q => n2.abides q name⟩
    | _ => exact absurd (fun _ _ _ h => by cases h) hq

/-- The calls of a callback, one after the other. -/
inductive Makes (env : Env) : List (Core → Op) → Core → Lists → Core → Lists → Prop
  | nil {c : Core} {l : Lists} : Makes env [] c l c l
  | cons {f : Core → Op} {fs : List (Core → Op)} {a : OpOut} {c c1 c' : Core} {l l1 l' : Lists} (i : DInv c l) (hi : (f c).inner = true)
      (n : Did env (f c) c l a c1 l1) (r : Makes env fs c1 l1 c' l') : Makes env (f :: fs) c l c' l'

/-- Makes that are safe whatever the state. -/
def Lawful (env : Env) (fs : List (Core → Op)) : Prop :=
  ∀ f ∈ fs, ∀ c l, DInv c l → (f c).inner = true ∧ OpSafe env c l.q (f c)

theorem Makes.inv {env : Env} {fs : List (Core → Op)} {c c' : Core} {l l' : Lists} (n : Makes env fs c l c' l') (i : DInv c l) : DInv c' l' := by
  induction n with
  | nil => exact i
  | cons _ _ n _ ih => exact ih (n.inv i)

theorem Makes.goes {env : Env} {fs : List (Core → Op)} {c c' : Core} {l l' : Lists} (n : Makes env fs c l c' l') : Goes c c' := by
  induction n with
  | nil => exact .refl _
  | cons _ hi n _ ih => exact (n.goes hi).trans ih

theorem Makes.lasts {env : Env} {fs : List (Core → Op)} {c c' : Core} {l l' : Lists} (n : Makes env fs c l c' l') {name : Bytes}
    (hs : ∀ f ∈ fs, ∀ c, (f c).Spares name) : Unended name c c' ∧ ∀ q, Abides q name c c' := by
  induction n with
  | nil => exact ⟨.refl _ _, fun q => .refl _ _ _⟩
  | @cons f fs _ c _ _ _ _ _ i hi n _ ih =>
    obtain ⟨h1, h2⟩ := n.lasts i hi (hs f (by simp) c)
    obtain ⟨k1, k2⟩ := ih fun g m => hs g (by simp [m])
    exact ⟨h1.trans k1, fun q => (h2 q).trans (k2 q)⟩

theorem reactWith_calls {env : Env} : ∀ (fs : List (Core → Op)) {c : Core} {l : Lists}, DInv c l → Lawful env fs →
    ∃ c' l', reactWith env fs ⟨c, l⟩ = .ok ((), ⟨c', l'⟩) ∧ Makes env fs c l c' l'
  | [], c, l, _, _ => ⟨c, l, rfl, .nil⟩
  | f :: fs, c, l, i, hf => by
    obtain ⟨hi, hs⟩ := hf f (by simp) c l i
    obtain ⟨a, c1, l1, e1, n1⟩ := step_ok (env := env) i (f c) hs
    obtain ⟨c', l', e, n⟩ := reactWith_calls (env := env) fs (n1.inv i) fun g m => hf g (by simp [m])
    refine ⟨c', l', ?_, .cons i hi n1 n⟩
    unfold reactWith
    rw [M.bind_ok core_ok, M.bind_ok e1]
    exact e

/-- An event that is no call of a callback. -/
def Event.Mute : Event → Prop
  | .answer _ _ _ => False
  | .conflict _ _ _ => False
  | .received _ => False
  | _ => True

/-- The log goes on without calls of callbacks. -/
def MuteLog (a b : List Event) : Prop := ∃ evs, b = a ++ evs ∧ ∀ e ∈ evs, e.Mute

theorem MuteLog.refl (a : List Event) : MuteLog a a := ⟨[], by simp, fun _ m => by cases m⟩

theorem MuteLog.of_eq {a b : List Event} (h : b = a) : MuteLog a b := h ▸ .refl a

theorem MuteLog.one {a b : List Event} {e : Event} (h : b = a ++ [e]) (he : e.Mute) : MuteLog a b :=
  ⟨[e], h, fun x m => by rw [List.mem_singleton] at m; rw [m]; exact he⟩

theorem MuteLog.trans {a b c : List Event} (h : MuteLog a b) (h' : MuteLog b c) : MuteLog a c := by
  obtain ⟨e1, rfl, h1⟩ := h
  obtain ⟨e2, rfl, h2⟩ := h'
  refine ⟨e1 ++ e2, by simp, fun e m => ?_⟩
  rcases List.mem_append.mp m with m | m
  · exact h1 e m
  · exact h2 e m

theorem Did.mute {env : Env} {o : Op} {a : OpOut} {c c' : Core} {l l' : Lists} (n : Did env o c l a c' l') (i : DInv c l) (h : o.inner = true) :
    MuteLog c.log c'.log := by
  cases n with
  | query e n =>
    rename_i host type a
    cases a with
    | none =>
      obtain ⟨c2, e2, _, hl, _⟩ := i.cinv.queryOff host type
      rw [e] at e2
      cases e2
      rcases hl with hl | rfl
      · exact .one hl trivial
      · exact .refl _
    | some cb =>
      obtain ⟨c2, e2, _, hl⟩ := i.cinv.queryOn host type cb
      rw [e] at e2
      cases e2
      exact .one hl trivial
  | setFamily => exact .refl _
  | receiveCallback => exact .refl _
  | shared => exact .refl _
  | unique => exact .refl _
  | done hx => exact .of_eq (doneSt_log ..)
  | setRaw hx => exact .of_eq (setSt_log ..)
  | setHost hx => exact .of_eq (setSt_log ..)
  | setIp hx => exact .of_eq (setSt_log ..)
  | setIpv6 hx => exact .of_eq (setSt_log ..)
  | setSrv hx => exact .of_eq (setSt_log ..)
  | setAddress n =>
    cases n with
    | same _ => exact .refl _
    | set _ _ n => exact .of_eq (by have := recfree_log n.recfree; exact this)
    | bye _ _ n => exact .of_eq (by have := recfree_log n.recfree; exact this)
  | setIpv6Address n =>
    cases n with
    | same _ => exact .refl _
    | set _ _ n => exact .of_eq (by have := recfree_log n.recfree; exact this)
    | bye _ _ n => exact .of_eq (by have := recfree_log n.recfree; exact this)
  | shutdown _ n =>
    obtain ⟨n⟩ := n
    exact .of_eq (by have := recfree_log n.recfree; exact this)
  | recv _ _ => cases h
  | send _ => cases h
  | sleep _ => cases h
  | setAddresses n => exact .of_eq (recfree_log n.recfree)
  | setIpv6Addresses n => exact .of_eq (recfree_log n.recfree)
  | setInterface n => exact .of_eq (recfree_log n.recfree)
  | clear _ e _ _ _ => exact .of_eq (recfree_log e)
  | stepEnd => cases h

theorem Makes.mute {env : Env} {fs : List (Core → Op)} {c c' : Core} {l l' : Lists} (n : Makes env fs c l c' l') : MuteLog c.log c'.log := by
  induction n with
  | nil => exact .refl _
  | cons i hi n _ ih => exact (n.mute i hi).trans ih

/-- The steps of a packet: those that leave the records alone and call no callback, and calls of callbacks. -/
inductive Course (env : Env) (p : Callbacks) : Core → Lists → Core → Lists → Prop
  | nil {c : Core} {l : Lists} (i : DInv c l) : Course env p c l c l
  | quiet {c c1 c' : Core} {l l' : Lists} (i : DInv c l) (h1 : c1.recs = c.recs) (h2 : MuteLog c.log c1.log) (n : Course env p c1 l c' l') :
      Course env p c l c' l'
  | answer {c c1 c' : Core} {l l1 l' : Lists} {q cb : Nat} {rr : Answer} (i : DInv c l)
      (n1 : Makes env (p.answer (c.heard [.answer q cb rr])) (c.heard [.answer q cb rr]) l c1 l1) (n : Course env p c1 l1 c' l') :
      Course env p c l c' l'
  | received {c c1 c' : Core} {l l1 l' : Lists} {a : Resource} (i : DInv c l)
      (n1 : Makes env (p.receive (c.heard [.received a])) (c.heard [.received a]) l c1 l1) (n : Course env p c1 l1 c' l') :
      Course env p c l c' l'
  | conflict {c c1 c' : Core} {l l1 l' : Lists} {r : Nat} {x x1 : Rec} (i : DInv c l) (hx : c.recs r = some x)
      (n1 : Reacts env x.rr.name (p.conflict x.rr.name x.rr.type (c.heard [.conflict r x.rr.name x.rr.type]))
        (c.heard [.conflict r x.rr.name x.rr.type]) l c1 l1)
      (i1 : DInv c1 l1) (hx1 : c1.recs r = some x1) (hn : x1.rr.name = x.rr.name)
      (n : Course env p (doneSt c1 l1 r x1).c (doneSt c1 l1 r x1).q c' l') : Course env p c l c' l'

theorem Course.inv {env : Env} {p : Callbacks} {c c' : Core} {l l' : Lists} (n : Course env p c l c' l') : DInv c' l' := by
  induction n with
  | nil i => exact i
  | quiet _ _ _ _ ih => exact ih
  | answer _ _ _ ih => exact ih
  | received _ _ _ ih => exact ih
  | conflict _ _ _ _ _ _ _ ih => exact ih

theorem Course.trans {env : Env} {p : Callbacks} {c c1 c' : Core} {l l1 l' : Lists} (n : Course env p c l c1 l1)
    (n' : Course env p c1 l1 c' l') : Course env p c l c' l' := by
  induction n with
  | nil _ => exact n'
  | quiet i h1 h2 _ ih => exact .quiet i h1 h2 (ih n')
  | answer i n1 _ ih => exact .answer i n1 (ih n')
  | received i n1 _ ih => exact .received i n1 (ih n')
  | conflict i hx n1 i1 hx1 hn _ ih => exact .conflict i hx n1 i1 hx1 hn (ih n')

theorem Course.one {env : Env} {p : Callbacks} {c c' : Core} {l : Lists} (i : DInv c l) (i' : DInv c' l) (h1 : c'.recs = c.recs)
    (h2 : MuteLog c.log c'.log) : Course env p c l c' l := .quiet i h1 h2 (.nil i')

theorem QStep.course {env : Env} {p : Callbacks} {c c' : Core} {l : Lists} (h : QStep c c') (i : DInv c l) (hl : MuteLog c.log c'.log) :
    Course env p c l c' l :=
  .one i ⟨h.inv, i.rinv.rest h.rest⟩ (congrArg Core.recs h.rest : c'.rest.recs = c.rest.recs) hl

/-- The program's answer callbacks make safe calls only; one that returns -1 does not end queries for the name of the record itself. -/
structure Callbacks.Polite (env : Env) (p : Callbacks) : Prop where
  lawful : ∀ c, Lawful env (p.answer c)
  received : ∀ c, Lawful env (p.receive c)
  once : ∀ c log q cb rr, c.log = log ++ [.answer q cb rr] → ∀ c', p.stop c c' = true → ∀ f ∈ p.answer c, ∀ c'', (f c'').Spares rr.name

/-- Told of an expired record, answer callbacks end no query whose name has the same hash. -/
def Callbacks.Careful (p : Callbacks) : Prop := ∀ c log q cb rr, c.log = log ++ [.answer q cb rr] → rr.ttl = 0 →
  (∀ c', p.stop c c' = false) ∧ ∀ f ∈ p.answer c, ∀ c'' n, bucket n lprime = bucket rr.name lprime → (f c'').Spares n

theorem cacheM_ok {f : Core → Res Core} {c c' : Core} {l : Lists} (h : f c = .ok c') : cacheM f (⟨c, l⟩ : D Lists) = .ok ((), ⟨c', l⟩) := by
  unfold cacheM
  exact liftC_ok (by rw [h]; rfl)

theorem QStep.goes {c c' : Core} (h : QStep c c') : Goes c c' := ⟨h.rrs, h.now, (congrArg Core.cls h.rest : c'.rest.cls = c.rest.cls)⟩

theorem callAnswerCb_ok {env : Env} {p : Callbacks} (hp : p.Polite env) {c : Core} {l : Lists} (h : DInv c l) {q : Nat} {x : Query} {rr : Answer}
    (hx : c.qs q = some x) (hn : x.name = rr.name) (ht : typeFits x.type rr) :
    ∃ b c' l', callAnswerCb env p q rr ⟨c, l⟩ = .ok (b, ⟨c', l'⟩) ∧ Course env p c l c' l' ∧ Goes c c' ∧ (b = true → Unended rr.name c c') ∧
      (p.Careful → rr.ttl ≤ c.now.sec → b = false ∧ ∀ q n, bucket n lprime = bucket rr.name lprime → Abides q n c c') := by
  have h1 : CInv (c.heard [.answer q x.cb (c.seen rr)]) := by
    apply h.cinv.addAnswer hx
    · rw [hn]; unfold Core.seen; split <;> rfl
    · unfold Core.seen; split <;> exact ht
  have i1 : DInv (c.heard [.answer q x.cb (c.seen rr)]) l := ⟨h1, h.rinv.congr rfl rfl rfl⟩
  have hr : (c.seen rr).name = rr.name := by unfold Core.seen; split <;> rfl
  obtain ⟨c', l', e1, n1⟩ := reactWith_calls _ i1 (hp.lawful (c.heard [.answer q x.cb (c.seen rr)]))
  refine ⟨p.stop (c.heard [.answer q x.cb (c.seen rr)]) c', c', l', ?_, .answer h n1 (.nil (n1.inv i1)), ⟨n1.goes.rrs, n1.goes.now, n1.goes.cls⟩, fun hs => ?_, fun hk hle => ?_⟩
  · unfold callAnswerCb
    rw [M.bind_ok core_ok, hx]
    dsimp only
    rw [M.bind_ok modC_ok, M.bind_ok core_ok]
    have e0 : ({ c with log := c.log ++ [Event.answer q x.cb (if rr.ttl ≤ c.now.sec then { rr with ttl := 0 } else rr)] } : Core) =
        c.heard [.answer q x.cb (c.seen rr)] := rfl
    rw [e0, M.bind_ok e1, M.bind_ok core_ok]
    rfl
  · have := (n1.lasts (name := rr.name) fun f m c'' => by rw [← hr]; exact hp.once _ c.log q x.cb (c.seen rr) rfl c' hs f m c'').1
    exact ⟨this.qs, this.entries⟩
  · have ht0 : (c.seen rr).ttl = 0 := by unfold Core.seen; rw [if_pos hle]
    obtain ⟨k1, k2⟩ := hk (c.heard [.answer q x.cb (c.seen rr)]) c.log q x.cb (c.seen rr) rfl ht0
    exact ⟨k1 c', fun q n hb => (n1.lasts (name := n) fun f m c'' => k2 f m c'' n (by rw [hr]; exact hb)).2 q⟩

theorem qAnswerCb_ok {env : Env} {p : Callbacks} (hp : p.Polite env) {c : Core} {l : Lists} (h : DInv c l) (e : Cached)
    (he : ∀ q, e.q = some q → ∃ x, c.qs q = some x ∧ x.name = e.rr.name ∧ typeFits x.type e.rr) :
    ∃ c' l', qAnswerCb env p e ⟨c, l⟩ = .ok ((), ⟨c', l'⟩) ∧ Course env p c l c' l' ∧ Goes c c' ∧
      (p.Careful → e.rr.ttl ≤ c.now.sec → ∀ q n, bucket n lprime = bucket e.rr.name lprime → Abides q n c c') := by
  unfold qAnswerCb
  cases hq : e.q with
  | none => exact ⟨c, l, rfl, .nil h, .refl c, fun _ _ q n _ => .refl _ _ _⟩
  | some q =>
    obtain ⟨x, hx, e1, e2⟩ := he q hq
    obtain ⟨b, c1, l1, f1, i1, g1, f2, f3⟩ := callAnswerCb_ok hp h hx e1 e2
    dsimp only
    rw [M.bind_ok f1]
    cases b with
    | false => exact ⟨c1, l1, rfl, i1, g1, fun hk hle => (f3 hk hle).2⟩
    | true =>
      obtain ⟨x', hx', _⟩ := (f2 rfl).qs q x hx e1
      obtain ⟨c2, k1, k2, _, k3, _⟩ := i1.inv.cinv.qDone hx'
      refine ⟨c2, l1, cacheM_ok k1, i1.trans (k2.course i1.inv (.one k3 trivial)), g1.trans k2.goes, fun hk hle => ?_⟩
      exact absurd (f3 hk hle).1 (by simp)

/-- Chain `i` of the cache became `as`; the records may have changed. -/
structure SweptCb (env : Env) (p : Callbacks) (i : Nat) (as : List Answer) (c : Core) (l : Lists) (c' : Core) (l' : Lists) : Prop where
  course : Course env p c l c' l'
  now : c'.now = c.now
  cls : c'.cls = c.cls
  other : ∀ j, j ≠ i → c'.rrs j = c.rrs j
  self : c'.rrs i = as

theorem SweptCb.inv {env : Env} {p : Callbacks} {i : Nat} {as : List Answer} {c c' : Core} {l l' : Lists} (h : SweptCb env p i as c l c' l') :
    DInv c' l' := h.course.inv

theorem DInv.withChain {c : Core} {l : Lists} (h : DInv c l) {f : Nat → List Cached} (hc : CInv { c with cache := f }) :
    DInv { c with cache := f } l := ⟨hc, h.rinv.congr rfl rfl rfl⟩

theorem cExpireFCb_ok {env : Env} {p : Callbacks} (hp : p.Polite env) (i : Nat) : ∀ (fuel k : Nat) (c : Core) (l : Lists), DInv c l →
    (c.cache i).length - k < fuel →
    ∃ c' l', cExpireFCb env p i fuel k ⟨c, l⟩ = .ok ((), ⟨c', l'⟩) ∧ SweptCb env p i ((c.rrs i).take k ++ ((c.rrs i).drop k).filter c.live) c l c' l' ∧
      (p.Careful → ∀ q n, bucket n lprime = i → Abides q n c c')
  | 0, _, _, _, _, hf => absurd hf (by simp)
  | fuel + 1, k, c, l, h, hf => by
    cases hk : (c.cache i)[k]? with
    | none =>
      have hlen := List.getElem?_eq_none_iff.mp hk
      have hd : (c.cache i).drop k = [] := List.drop_eq_nil_of_le hlen
      have ht : (c.cache i).take k = c.cache i := List.take_of_length_le hlen
      refine ⟨c, l, ?_, ⟨.nil h, rfl, rfl, fun _ _ => rfl, ?_⟩, fun _ q n _ => .refl _ _ _⟩
      · unfold cExpireFCb
        rw [M.bind_ok core_ok, hk]
        rfl
      · unfold Core.rrs
        rw [← List.map_take, ← List.map_drop, hd, ht]
        simp
    | some e =>
      have hlt : k < (c.cache i).length := by
        rcases Nat.lt_or_ge k (c.cache i).length with hh | hh
        · exact hh
        · rw [List.getElem?_eq_none_iff.mpr hh] at hk
          exact absurd hk (by simp)
      have hmem : e ∈ c.cache i := List.mem_of_getElem? hk
      have hdrop : (c.cache i).drop k = e :: (c.cache i).drop (k + 1) := by
        rw [List.drop_eq_getElem_cons hlt]
        rw [List.getElem?_eq_getElem hlt] at hk
        cases hk
        rfl
      have hdr : (c.rrs i).drop k = e.rr :: (c.rrs i).drop (k + 1) := by
        simp only [Core.rrs, ← List.map_drop, hdrop, List.map_cons]
      by_cases hexp : c.now.sec ≥ e.rr.ttl
      · have hl : c.live e.rr = false := by simp [Core.live]; exact hexp
        obtain ⟨c1, l1, e1, i1, s1, a1⟩ := qAnswerCb_ok (env := env) hp (h.withChain (h.cinv.erased i k)) e (fun q hq => h.cinv.cq i e q hmem hq)
        have hself : c1.rrs i = (c.rrs i).eraseIdx k := by
          rw [s1.rrs i]
          simp only [Core.rrs, upd_same, map_eraseIdx]
        have hother : ∀ j, j ≠ i → c1.rrs j = c.rrs j := by
          intro j hj
          rw [s1.rrs j]
          simp only [Core.rrs, upd, hj, if_false]
        have hlen1 : (c1.cache i).length = (c.cache i).length - 1 := by
          have := congrArg List.length hself
          simp only [Core.rrs, List.length_map, List.length_eraseIdx] at this
          rw [this, if_pos hlt]
        obtain ⟨c2, l2, e2, s2, a2⟩ := cExpireFCb_ok hp i fuel k c1 l1 i1.inv (by omega)
        have hnow : c1.now = c.now := s1.now
        have hlive : c1.live = c.live := by
          funext a
          simp only [Core.live, hnow]
        refine ⟨c2, l2, ?_, ⟨((Course.one h (h.withChain (h.cinv.erased i k)) rfl (.refl _)).trans i1).trans s2.course, s2.now.trans hnow, s2.cls.trans s1.cls, fun j hj => (s2.other j hj).trans (hother j hj), ?_⟩, fun hk' q n hn => ?_⟩
        · unfold cExpireFCb
          rw [M.bind_ok core_ok, hk]
          dsimp only
          rw [if_pos hexp, M.bind_ok modC_ok, M.bind_ok e1]
          exact e2
        · rw [s2.self, hself, hlive, take_eraseIdx, drop_eraseIdx, hdr, List.filter_cons, hl]
          rfl
        · have := a1 hk' hexp q n (by rw [hn]; exact (h.cinv.cbucket i e hmem).symm)
          exact Abides.trans (b := c1) (fun hx m => this hx m) (a2 hk' q n hn)
      · have hl : c.live e.rr = true := by simp [Core.live]; omega
        obtain ⟨c2, l2, e2, s2, a2⟩ := cExpireFCb_ok hp i fuel (k + 1) c l h (by omega)
        have htake : (c.cache i).take (k + 1) = (c.cache i).take k ++ [e] := by
          rw [List.take_add_one, hk]
          rfl
        have htr : (c.rrs i).take (k + 1) = (c.rrs i).take k ++ [e.rr] := by
          simp only [Core.rrs, ← List.map_take, htake, List.map_append, List.map_cons, List.map_nil]
        refine ⟨c2, l2, ?_, ⟨s2.course, s2.now, s2.cls, s2.other, ?_⟩, a2⟩
        · unfold cExpireFCb
          rw [M.bind_ok core_ok, hk]
          dsimp only
          rw [if_neg hexp]
          exact e2
        · rw [s2.self, htr, hdr, List.filter_cons, hl]
          simp

theorem cExpireCb_ok {env : Env} {p : Callbacks} (hp : p.Polite env) (i : Nat) {c : Core} {l : Lists} (h : DInv c l) :
    ∃ c' l', cExpireCb env p i ⟨c, l⟩ = .ok ((), ⟨c', l'⟩) ∧ SweptCb env p i ((c.rrs i).filter c.live) c l c' l' ∧
      (p.Careful → ∀ q n, bucket n lprime = i → Abides q n c c') := by
  obtain ⟨c', l', e, s, a⟩ := cExpireFCb_ok hp i ((c.cache i).length + 1) 0 c l h (by omega)
  refine ⟨c', l', ?_, by simpa using s, a⟩
  unfold cExpireCb
  rw [M.bind_ok core_ok]
  exact e

theorem zapCb_ok {env : Env} {p : Callbacks} (hp : p.Polite env) (i : Nat) (f : Answer → Bool) {c : Core} {l : Lists} (h : DInv c l) :
    ∃ c' l', cExpireCb env p i ⟨c.zeroed i f, l⟩ = .ok ((), ⟨c', l'⟩) ∧ SweptCb env p i ((c.rrs i).filter fun a => c.live a && !f a) c l c' l' := by
  obtain ⟨c', l', e, n, _⟩ := cExpireCb_ok (env := env) hp i (c := c.zeroed i f) (l := l) (h.withChain (h.cinv.zeroed i f))
  have hlive : (c.zeroed i f).live = c.live := rfl
  have hch : (c.zeroed i f).cache i = (c.cache i).map (zero f) := by simp only [Core.zeroed, upd_same]
  refine ⟨c', l', e, (Course.one h (h.withChain (h.cinv.zeroed i f)) rfl (.refl _)).trans n.course, n.now, n.cls, fun j hj => ?_, ?_⟩
  · rw [n.other j hj]
    unfold Core.rrs
    simp only [Core.zeroed, upd, hj, if_false]
  · rw [n.self, hlive]
    unfold Core.rrs
    rw [hch, filter_rr, filter_zero, filter_rr]

/-- What is left of a chain when an answer asks for records of its name and type to be forgotten.  RFC 6762, 10.2. -/
def Core.flushed (c : Core) (r : Resource) (as : List Answer) : List Answer :=
  if r.cls = 32768 + c.cls then as.filter fun a => c.live a && !(a.is r.name r.type) else as

/-- A chain without the record of an answer; expired ones go along with it. -/
def Core.without (c : Core) (r : Resource) (as : List Answer) : List Answer :=
  if as.any (hit r) then as.filter fun a => c.live a && !(hit r a) else as

/-- A chain with the record of an answer. -/
def Core.having (c : Core) (r : Resource) (src : Addr) (as : List Answer) : List Answer :=
  if as.any (hit r) then as.map fun a => if hit r a then { a with ttl := c.expiry r } else a
  else Core.newEntry r src (c.expiry r) :: as

/-- A chain after an answer. -/
def Core.taken (c : Core) (r : Resource) (src : Addr) (as : List Answer) : List Answer :=
  if r.ttl = 0 then c.without r (c.flushed r as) else c.having r src (c.flushed r as)

theorem find_hit {c : Core} {r : Resource} {i : Nat} : (c.cache i).findIdx? (fun e => hit r e.rr) = none ↔ (c.rrs i).any (hit r) = false := by
  rw [List.findIdx?_eq_none_iff, Core.rrs, List.any_map, List.any_eq_false]
  simp [Function.comp]

theorem deleteFCb_ok {env : Env} {p : Callbacks} (hp : p.Polite env) {r : Resource} (hr : r.WF) {c : Core} {l : Lists} (h : DInv c l) :
    ∃ c' l', deleteFCb env p r (bucket r.name lprime) ((c.chain r.name).length + 1) ⟨c, l⟩ = .ok ((), ⟨c', l'⟩) ∧
      SweptCb env p (bucket r.name lprime) (c.without r (c.rrs (bucket r.name lprime))) c l c' l' := by
  have stop : ∀ (fuel : Nat) (c : Core) (l : Lists), (c.cache (bucket r.name lprime)).findIdx? (fun e => hit r e.rr) = none →
      deleteFCb env p r (bucket r.name lprime) (fuel + 1) ⟨c, l⟩ = .ok ((), ⟨c, l⟩) := by
    intro fuel c l hf
    unfold deleteFCb
    rw [M.bind_ok core_ok]
    show (match (c.cache (bucket r.name lprime)).findIdx? (fun e => hit r e.rr) with
      | none => _
      | some k => _ : M Lists Unit) _ = _
    rw [hf]
    rfl
  cases hf : (c.cache (bucket r.name lprime)).findIdx? (fun e => hit r e.rr) with
  | none =>
    refine ⟨c, l, stop _ c l hf, .nil h, rfl, rfl, fun _ _ => rfl, ?_⟩
    unfold Core.without
    rw [if_neg (by rw [find_hit.mp hf]; simp)]
  | some k =>
    have hany : (c.rrs (bucket r.name lprime)).any (hit r) = true := by
      cases ha : (c.rrs (bucket r.name lprime)).any (hit r) with
      | true => rfl
      | false => rw [find_hit.mpr ha] at hf; cases hf
    have hlen : ∃ n, (c.chain r.name).length = n + 1 := by
      cases hc : c.chain r.name with
      | nil =>
        have : c.cache (bucket r.name lprime) = [] := hc
        rw [this] at hf
        cases hf
      | cons a t => exact ⟨t.length, rfl⟩
    obtain ⟨n, hn⟩ := hlen
    have hm : (c.modEntry (bucket r.name lprime) k fun e => { e with rr := { e.rr with ttl := 0 } }) =
        c.zeroed (bucket r.name lprime) (hit r) := by
      unfold Core.modEntry Core.zeroed
      rw [modify_eq_map _ (fun e => hit r e.rr) _ k hf (h.cinv.hit_once hr _)]
      rfl
    obtain ⟨c', l', e, hz⟩ := zapCb_ok (env := env) hp (bucket r.name lprime) (hit r) h
    have h2 : (c'.cache (bucket r.name lprime)).findIdx? (fun e => hit r e.rr) = none := by
      rw [find_hit, hz.self, List.any_eq_false]
      intro a m
      simp only [List.mem_filter, Bool.and_eq_true, Bool.not_eq_true'] at m
      simp [m.2.2]
    refine ⟨c', l', ?_, hz.course, hz.now, hz.cls, hz.other, ?_⟩
    · rw [hn]
      unfold deleteFCb
      rw [M.bind_ok core_ok]
      show (match (c.cache (bucket r.name lprime)).findIdx? (fun e => hit r e.rr) with
        | none => _
        | some k => _ : M Lists Unit) _ = _
      rw [hf]
      dsimp only
      rw [M.bind_ok modC_ok, hm, M.bind_ok e]
      exact stop n c' l' h2
    · unfold Core.without
      rw [if_pos hany]
      exact hz.self

theorem flushCb_ok {env : Env} {p : Callbacks} (hp : p.Polite env) (r : Resource) {c : Core} {l : Lists} (h : DInv c l) :
    ∃ c' l', flushCb env p r ⟨c, l⟩ = .ok ((), ⟨c', l'⟩) ∧
      SweptCb env p (bucket r.name lprime) (c.flushed r (c.rrs (bucket r.name lprime))) c l c' l' := by
  unfold flushCb Core.flushed
  rw [M.bind_ok core_ok]
  by_cases hc : r.cls = 32768 + c.cls
  · obtain ⟨c1, l1, e, hz⟩ := zapCb_ok (env := env) hp (bucket r.name lprime) (fun a => a.is r.name r.type) h
    rw [if_pos hc, if_pos hc]
    refine ⟨c1, l1, ?_, hz⟩
    rw [M.bind_ok modC_ok]
    exact e
  · rw [if_neg hc, if_neg hc]
    exact ⟨c, l, rfl, .nil h, rfl, rfl, fun _ _ => rfl, rfl⟩

theorem insertCb_ok {env : Env} {p : Callbacks} (hp : p.Polite env) {r : Resource} (hr : r.WF) (src : Addr) {c : Core} {l : Lists} (h : DInv c l) :
    ∃ c' l', insertCb env p r src ⟨c, l⟩ = .ok ((), ⟨c', l'⟩) ∧
      SweptCb env p (bucket r.name lprime) (c.having r src (c.rrs (bucket r.name lprime))) c l c' l' := by
  unfold insertCb Core.having
  rw [M.bind_ok core_ok]
  cases hf : (c.cache (bucket r.name lprime)).findIdx? (fun e => hit r e.rr) with
  | some k =>
    have hany : (c.rrs (bucket r.name lprime)).any (hit r) = true := by
      cases ha : (c.rrs (bucket r.name lprime)).any (hit r) with
      | true => rfl
      | false => rw [find_hit.mpr ha] at hf; cases hf
    have hm : (c.modEntry (bucket r.name lprime) k fun e => { e with rr := { e.rr with ttl := c.expiry r } }) =
        c.setChain (bucket r.name lprime) ((c.chain r.name).map fun e => if hit r e.rr then { e with rr := { e.rr with ttl := c.expiry r } } else e) := by
      unfold Core.modEntry Core.setChain
      rw [modify_eq_map _ (fun e => hit r e.rr) _ k hf (h.cinv.hit_once hr _)]
      rfl
    obtain ⟨c0, _, e0, n0, _⟩ := h.cinv.insert env hr src
    have e1 : c.insert env r src = .ok (c.modEntry (bucket r.name lprime) k fun e => { e with rr := { e.rr with ttl := c.expiry r } }) := by
      unfold Core.insert
      show (match (c.cache (bucket r.name lprime)).findIdx? (fun e => hit r e.rr) with
        | some k => _
        | none => _) = _
      rw [hf]
      rfl
    rw [e1] at e0
    cases e0
    refine ⟨_, l, ?_, ⟨.one h ⟨n0.inv, h.rinv.rest n0.rest⟩ rfl (.refl _), rfl, rfl, fun j hj => ?_, ?_⟩⟩
    · show (match (c.cache (bucket r.name lprime)).findIdx? (fun e => hit r e.rr) with
        | some k => _
        | none => _ : M Lists Unit) _ = _
      rw [hf]
      exact modC_ok
    · rw [hm, setChain_other _ _ _ hj]
    · rw [hm, setChain_rrs, if_pos hany]
      unfold Core.rrs Core.chain
      rw [List.map_map, List.map_map]
      refine List.map_congr_left fun a _ => ?_
      simp only [Function.comp]
      split <;> rfl
  | none =>
    have hany := find_hit.mp hf
    obtain ⟨o, h1, h2, _⟩ := h.cinv.qFind r.name r.type
    have hnew : CInv (c.setChain (bucket r.name lprime) ({ rr := Core.newEntry r src (c.expiry r), q := o } :: c.cache (bucket r.name lprime))) := by
      cases o with
      | none =>
        obtain ⟨c0, _, e0, n0, _⟩ := h.cinv.insert env hr src
        have e1 : c.insert env r src = .ok (c.setChain (bucket r.name lprime) ({ rr := Core.newEntry r src (c.expiry r), q := none } :: c.cache (bucket r.name lprime))) := by
          unfold Core.insert
          show (match (c.cache (bucket r.name lprime)).findIdx? (fun e => hit r e.rr) with
            | some k => _
            | none => _) = _
          rw [hf]
          dsimp only
          rw [h1]
          rfl
        rw [e1] at e0
        cases e0
        exact n0.inv
      | some q =>
        obtain ⟨x, hx, e1, e2⟩ := h2 q rfl
        exact h.cinv.linked hr hf hx e1 e2
    have hi : DInv (c.setChain (bucket r.name lprime) ({ rr := Core.newEntry r src (c.expiry r), q := o } :: c.cache (bucket r.name lprime))) l :=
      ⟨hnew, h.rinv.congr rfl rfl rfl⟩
    generalize hc1 : c.setChain (bucket r.name lprime)
        ({ rr := Core.newEntry r src (c.expiry r), q := o } :: c.cache (bucket r.name lprime)) = c1 at hi
    have hself : c1.cache (bucket r.name lprime) = { rr := Core.newEntry r src (c.expiry r), q := o } :: c.cache (bucket r.name lprime) := by
      rw [← hc1]
      simp only [Core.setChain, upd_same]
    have hswept : ∀ {c2 : Core} {l2 : Lists}, Course env p c1 l c2 l2 → Goes c1 c2 →
        SweptCb env p (bucket r.name lprime) (Core.newEntry r src (c.expiry r) :: c.rrs (bucket r.name lprime)) c l c2 l2 := by
      intro c2 l2 i2 g
      refine ⟨(Course.one h hi (by rw [← hc1]; rfl) (by rw [← hc1]; exact .refl _)).trans i2, g.now.trans (by rw [← hc1]; rfl), g.cls.trans (by rw [← hc1]; rfl), fun j hj => ?_, ?_⟩
      · rw [g.rrs, ← hc1, setChain_other _ _ _ hj]
      · rw [g.rrs, ← hc1, setChain_rrs]
        rfl
    rw [if_neg (by rw [hany]; simp)]
    show ∃ c' l', (match (c.cache (bucket r.name lprime)).findIdx? (fun e => hit r e.rr) with
      | some k => _
      | none => _ : M Lists Unit) _ = _ ∧ _
    rw [hf]
    dsimp only
    rw [M.bind_ok (liftC_ok (a := o) (c' := c) (by rw [h1]; rfl)), M.bind_ok modC_ok]
    have ec : ({ c with cache := upd c.cache (bucket r.name lprime) ({ rr := Core.newEntry r src (c.now.sec + r.ttl / 2 + 8), q := o } :: c.cache (bucket r.name lprime)) } : Core) = c1 := hc1
    rw [ec]
    cases o with
    | none => exact ⟨c1, l, rfl, hswept (.nil hi) (.refl _)⟩
    | some q =>
      obtain ⟨x, hx, e1, e2⟩ := h2 q rfl
      obtain ⟨b, c2, l2, f1, i2, g2, f2, _⟩ := callAnswerCb_ok hp hi (rr := Core.newEntry r src (c.expiry r))
        (by rw [← hc1]; exact hx) (by rw [newEntry_name]; exact e1) (.inl (by rw [newEntry_type]; exact e2))
      dsimp only
      rw [show c.now.sec + r.ttl / 2 + 8 = c.expiry r from rfl, M.bind_ok f1]
      cases b with
      | false => exact ⟨c2, l2, rfl, hswept i2 g2⟩
      | true =>
        obtain ⟨e, he, _, hs⟩ := (f2 rfl).entries (bucket r.name lprime) 0 { rr := Core.newEntry r src (c.expiry r), q := some q }
          (by rw [hself]; rfl) rfl rfl
        obtain ⟨rr', q'⟩ := e
        cases q' with
        | none => simp at hs
        | some q' =>
          obtain ⟨x', hx', _⟩ := i2.inv.cinv.cq (bucket r.name lprime) ⟨rr', some q'⟩ q' (List.mem_of_getElem? he) rfl
          obtain ⟨c3, k1, k2, _, k3, _⟩ := i2.inv.cinv.qDone hx'
          refine ⟨c3, l2, cacheM_ok ?_, hswept (i2.trans (k2.course i2.inv (.one k3 trivial))) (g2.trans k2.goes)⟩
          rw [← List.head?_eq_getElem?] at he
          unfold Core.doneHead
          rw [he]
          exact k1

theorem cacheInCb_ok {env : Env} {p : Callbacks} (hp : p.Polite env) {r : Resource} (hr : r.WF) (src : Addr) {c : Core} {l : Lists} (h : DInv c l) :
    ∃ c' l', cacheInCb env p r src ⟨c, l⟩ = .ok ((), ⟨c', l'⟩) ∧
      SweptCb env p (bucket r.name lprime) (c.taken r src (c.rrs (bucket r.name lprime))) c l c' l' := by
  obtain ⟨c1, l1, e1, s1⟩ := flushCb_ok (env := env) hp r h
  have hlive : c1.live = c.live := by
    funext a
    simp only [Core.live, s1.now]
  have hexp : c1.expiry r = c.expiry r := by
    unfold Core.expiry
    rw [s1.now]
  unfold cacheInCb Core.taken
  rw [M.bind_ok e1, M.bind_ok core_ok]
  have join : ∀ {as : List Answer} {c2 : Core} {l2 : Lists}, SweptCb env p (bucket r.name lprime) as c1 l1 c2 l2 →
      SweptCb env p (bucket r.name lprime) as c l c2 l2 := fun s2 => ⟨s1.course.trans s2.course, s2.now.trans s1.now, s2.cls.trans s1.cls, fun j hj => (s2.other j hj).trans (s1.other j hj), s2.self⟩
  by_cases ht : r.ttl = 0
  · rw [if_pos ht, if_pos ht]
    obtain ⟨c2, l2, e2, s2⟩ := deleteFCb_ok (env := env) hp hr s1.inv
    refine ⟨c2, l2, e2, ?_⟩
    have := join s2
    rw [s1.self] at this
    unfold Core.without at this ⊢
    rw [hlive] at this
    exact this
  · rw [if_neg ht, if_neg ht]
    obtain ⟨c2, l2, e2, s2⟩ := insertCb_ok (env := env) hp hr src s1.inv
    refine ⟨c2, l2, e2, ?_⟩
    have := join s2
    rw [s1.self] at this
    unfold Core.having at this ⊢
    rw [hexp] at this
    exact this

theorem gcLoopCb_ok {env : Env} {p : Callbacks} (hp : p.Polite env) : ∀ (n : Nat) {c : Core} {l : Lists}, n ≤ lprime → DInv c l →
    ∃ c' l', gcLoopCb env p n ⟨c, l⟩ = .ok ((), ⟨c', l'⟩) ∧ Course env p c l c' l' ∧ c'.now = c.now ∧ (∀ i < lprime - n, c'.rrs i = c.rrs i) ∧
      ∀ i, lprime - n ≤ i → i < lprime → c'.rrs i = (c.rrs i).filter c.live
  | 0, c, l, _, h => ⟨c, l, rfl, .nil h, rfl, fun _ _ => rfl, fun i h1 h2 => by omega⟩
  | n + 1, c, l, hn, h => by
    obtain ⟨c1, l1, e1, s1, _⟩ := cExpireCb_ok (env := env) hp (lprime - (n + 1)) h
    obtain ⟨c2, l2, e2, i2, n2, a2, b2⟩ := gcLoopCb_ok hp n (by omega) s1.inv
    have hlive : c1.live = c.live := by
      funext a
      simp only [Core.live, s1.now]
    refine ⟨c2, l2, ?_, s1.course.trans i2, n2.trans s1.now, fun i hi => ?_, fun i h1 h2 => ?_⟩
    · unfold gcLoopCb
      rw [M.bind_ok e1]
      exact e2
    · rw [a2 i (by omega), s1.other i (by omega)]
    · by_cases hi : i = lprime - (n + 1)
      · subst hi
        rw [a2 _ (by omega), s1.self]
      · rw [b2 i (by omega) h2, hlive, s1.other i hi]

theorem gcCb_ok {env : Env} {p : Callbacks} (hp : p.Polite env) {c : Core} {l : Lists} (h : DInv c l) :
    ∃ c' l', gcCb env p ⟨c, l⟩ = .ok ((), ⟨c', l'⟩) ∧ Course env p c l c' l' ∧ ∀ i < lprime, c'.rrs i = (c.rrs i).filter c.live := by
  obtain ⟨c1, l1, e1, i1, n1, _, b1⟩ := gcLoopCb_ok (env := env) hp lprime (Nat.le_refl _) h
  refine ⟨{ c1 with expireall := c1.now.sec + gcInterval }, l1, ?_,
    i1.trans (.one i1.inv (i1.inv.congr rfl rfl rfl rfl rfl rfl rfl rfl rfl) rfl (.refl _)), fun i hi => b1 i (by omega) hi⟩
  unfold gcCb
  rw [M.bind_ok e1]
  exact modC_ok

end Mdns
