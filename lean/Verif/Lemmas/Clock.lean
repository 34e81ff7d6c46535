import Verif.Lemmas.Gaps

/-!
# The timers follow the clock

Whatever is called, the times at which responses, probes and announcements are due are at most
two seconds after the latest time the daemon was told, or what `mdnsd_sleep` returned.
-/

namespace Mdns

/-- The timers were left alone or set to about now. -/
structure Ticks (c c' : Core) : Prop where
  now : c'.now = c.now
  pause : c'.pause = c.pause ∨ c'.pause = ⟨c.now.sec, c.now.usec + c.now.usec % 100 + 20⟩
  publish : c'.publish = c.publish ∨ c'.publish = c.now

theorem Ticks.refl (c : Core) : Ticks c c := ⟨rfl, .inl rfl, .inl rfl⟩

theorem Ticks.trans {a b c : Core} (h : Ticks a b) (h' : Ticks b c) : Ticks a c := by
  refine ⟨h'.now.trans h.now, ?_, ?_⟩
  · rcases h'.pause with e | e
    · rw [e]; exact h.pause
    · right; rw [e, h.now]
  · rcases h'.publish with e | e
    · rw [e]; exact h.publish
    · right; rw [e, h.now]

theorem Ticks.same {c c' : Core} (h : c'.now = c.now) (hp : c'.pause = c.pause) (hq : c'.publish = c.publish) : Ticks c c' :=
  ⟨h, .inl hp, .inl hq⟩

theorem Ticks.from {c c1 c' : Core} (h : Ticks c1 c') (e : c1.now = c.now) (e' : c1.pause = c.pause)
    (e'' : c1.publish = c.publish) : Ticks c c' := (Ticks.same e e' e'').trans h

theorem Ticks.rest {c c' : Core} (e : c'.rest = c.rest) : Ticks c c' :=
  .same (congrArg Core.now e : c'.rest.now = c.rest.now) (congrArg Core.pause e : c'.rest.pause = c.rest.pause)
    (congrArg Core.publish e : c'.rest.publish = c.rest.publish)

theorem Ticks.dropRec (c : Core) (r : Nat) (x : Rec) : Ticks c (c.dropRec r x) := .same rfl rfl rfl

theorem Ticks.send (c : Core) (l : Lists) (r : Nat) (x : Rec) : Ticks c (sendSt c l r x).c := by
  unfold sendSt
  split
  · exact ⟨rfl, .inl rfl, .inr rfl⟩
  · split
    · exact .refl _
    · exact ⟨rfl, .inr rfl, .inl rfl⟩

theorem Ticks.publish' (c : Core) (l : Lists) (r : Nat) (x : Rec) : Ticks c (publishSt c l r x).c := by
  unfold publishSt
  split
  · exact .same rfl rfl rfl
  · exact ⟨rfl, .inl rfl, .inr rfl⟩

theorem Ticks.locals {env : Env} {c c' : Core} (h : Locals env c c') : Ticks c c' := by
  obtain ⟨a, b, n, rfl, _⟩ := h
  exact .same rfl rfl rfl

theorem Ticks.set (c : Core) (l : Lists) (r : Nat) (x : Rec) : Ticks c (setSt c l r x).c :=
  (Ticks.publish' _ l r x).from rfl rfl rfl

theorem Ticks.done (c : Core) (l : Lists) (r : Nat) (x : Rec) : Ticks c (doneSt c l r x).c := by
  unfold doneSt
  split
  · exact Ticks.dropRec ..
  · exact (Ticks.send _ l r _).from rfl rfl rfl

/-! ### Receiving -/

theorem AnsL.ticks {env : Env} {src : Addr} {q : Question} {an : List Resource} {rs : List Nat} {s t : ISt}
    (n : AnsL env src q an rs s t) : Ticks s.c t.c := by
  induction n with
  | done h => exact .refl _
  | quiet _ _ _ hl _ _ ih => exact (Ticks.locals hl).trans ih
  | conflict _ _ _ hl _ _ ih => 
    exact (Ticks.locals hl).trans (((Ticks.dropRec _ _ _).trans ih).from rfl rfl rfl)
  | known _ _ _ _ _ _ ih => exact ih.from rfl rfl rfl
  | send _ _ _ _ _ _ ih => exact ((Ticks.send _ _ _ _).trans ih).from rfl rfl rfl

theorem SendL.ticks {rs : List Nat} {c c' : Core} {l l' : Lists} (n : SendL rs c l c' l') : Ticks c c' := by
  induction n with
  | done h => exact .refl _
  | send _ _ _ ih => exact (Ticks.send _ _ _ _).trans ih

theorem InQ.ticks {env : Env} {m : Msg} {src : Addr} {q : Question} {did did' : Bool} {c c' : Core} {l l' : Lists}
    (n : InQ env m src q did c l did' c' l') : Ticks c c' := by
  cases n with
  | none h => exact .refl _
  | disco _ _ _ n => exact Ticks.from (c := c) n.ticks rfl rfl rfl
  | multi _ _ _ n => exact n.ticks
  | uni _ _ _ n hp => exact ⟨n.ticks.now, n.ticks.pause, n.ticks.publish⟩

theorem InQs.ticks {env : Env} {m : Msg} {src : Addr} {qs : List Question} {did : Bool} {c c' : Core} {l l' : Lists}
    (n : InQs env m src qs did c l c' l') : Ticks c c' := by
  induction n with
  | nil => exact .refl _
  | cons _ h _ ih => exact h.ticks.trans ih

theorem InA.ticks {env : Env} {src : Addr} {a : Resource} {did did' : Bool} {c c' : Core} {l l' : Lists}
    (n : InA env src a did c l did' c' l') (ha : a.WF) (h : DInv c l) : Ticks c c' := by
  cases n with
  | cache _ e => exact (Ticks.rest (cacheIn_recs (h.cinv.received a) ha e)).from rfl rfl rfl
  | own _ hl => exact .locals hl
  | @conflict r x c1 _ _ hl hx hu e =>
    have i := done_inv h hl hx
    have h1 : Ticks c1 _ := (Ticks.done (c1.heard [.conflict r x.rr.name x.rr.type]) l r x).from rfl rfl rfl
    exact (Ticks.locals hl).trans (h1.trans ((Ticks.rest (cacheIn_recs (i.cinv.received a) ha e)).from rfl rfl rfl))

theorem InAs.ticks {env : Env} {src : Addr} {as : List Resource} {did : Bool} {c c' : Core} {l l' : Lists}
    (n : InAs env src as did c l c' l') (ha : ∀ a ∈ as, a.WF) : Ticks c c' := by
  induction n with
  | nil => exact .refl _
  | cons i h _ ih => exact (h.ticks (ha _ (by simp)) i).trans (ih fun a m => ha a (by simp [m]))

theorem InMsg.ticks {env : Env} {now : TV} {m : Msg} {src : Addr} {c c' : Core} {l l' : Lists} {ret : Nat}
    (n : InMsg env now m src c l ret c' l') (ha : ∀ a ∈ m.an, a.WF) : Ticks c c' ∨ Ticks { c with now := now } c' := by
  cases n with
  | shutdown => exact .inl (.refl _)
  | own _ hl _ => exact .inr (Ticks.locals hl)
  | query _ _ hl _ n => exact .inr ((Ticks.locals hl).trans n.ticks)
  | response _ _ hl _ n => exact .inr ((Ticks.locals hl).trans (n.ticks ha))

theorem SetL.ticks {type : Nat} {a : Ip} {rs : List Nat} {c c' : Core} {l l' : Lists}
    (n : SetL type a rs c l c' l') : Ticks c c' := by
  induction n with
  | nil h => exact .refl _
  | skip _ _ _ _ ih => exact ih
  | set _ _ _ _ ih => exact (Ticks.set _ _ _ _).trans ih

theorem ByeL.ticks {p : Rec → Prop} {rs : List Nat} {c c' : Core} {l l' : Lists}
    (n : ByeL p rs c l c' l') : Ticks c c' := by
  induction n with
  | nil h => exact .refl _
  | skip _ _ _ _ ih => exact ih
  | bye _ _ _ _ _ ih => exact ih.from rfl rfl rfl

theorem AddA.ticks {host : Bytes} {type ttl : Nat} {wants : List Ip} {c c' : Core} {l l' : Lists}
    (n : AddA host type ttl wants c l c' l') : Ticks c c' := by
  induction n with
  | nil h => exact .refl _
  | there _ _ _ ih => exact ih
  | new _ _ _ ih => exact ((Ticks.set _ _ _ _).trans ih).from rfl rfl rfl

theorem DropA.ticks {host : Bytes} {type : Nat} {want : List Ip} {rs : List Nat} {c c' : Core}
    {l l' : Lists} (n : DropA host type want rs c l c' l') : Ticks c c' := by
  induction n with
  | nil h => exact .refl _
  | keep _ _ _ _ ih => exact ih
  | drop _ _ _ _ ih => exact (Ticks.done _ _ _ _).trans ih

theorem UpdA.ticks {host : Bytes} {type : Nat} {want : List Ip} {c c' : Core} {l l' : Lists}
    (n : UpdA host type want c l c' l') : Ticks c c' := by
  cases n with
  | mk h ht a d => exact a.ticks.trans d.ticks

theorem IfA.ticks {v4 : List Ip4} {v6 : List Ip6} {hosts : List Bytes} {c c' : Core} {l l' : Lists}
    (n : IfA v4 v6 hosts c l c' l') : Ticks c c' := by
  induction n with
  | nil h => exact .refl _
  | cons a b _ ih => exact (a.ticks.trans b.ticks).trans ih

theorem Addr4.ticks {a : Ip4} {c c' : Core} {l l' : Lists} (n : Addr4 a c l c' l') : Ticks c c' := by
  cases n with
  | same => exact .refl _
  | set _ _ n => exact n.ticks.trans (.same rfl rfl rfl)
  | bye _ _ n => exact n.ticks.trans (.same rfl rfl rfl)

theorem Addr6.ticks {a : Ip6} {c c' : Core} {l l' : Lists} (n : Addr6 a c l c' l') : Ticks c c' := by
  cases n with
  | same => exact .refl _
  | set _ _ n => exact n.ticks.trans (.same rfl rfl rfl)
  | bye _ _ n => exact n.ticks.trans (.same rfl rfl rfl)

theorem Shut.ticks {c c' : Core} {l l' : Lists} (n : Shut c l c' l') : Ticks c c' := by
  cases n with
  | mk n => exact n.ticks.trans (.same rfl rfl rfl)

/-- The times a daemon knows are at least two seconds before `T`. -/
structure Within (T : TV) (c : Core) : Prop where
  usec : c.now.usec < 1000000 ∧ c.pause.usec < 1000119
  now : 2000000 ≤ tvdiff c.now T
  pause : tvdiff T c.pause ≤ 0
  probe : tvdiff T c.probe ≤ 0
  publish : tvdiff T c.publish ≤ 0

theorem Within.rested {T : TV} {c : Core} (h : Within T c) : Rested c T := ⟨h.pause, h.probe, h.publish⟩

theorem Within.atNow {T : TV} {c : Core} (h : Within T c) {now : TV} (hv : now.usec < 1000000)
    (ht : 2000000 ≤ tvdiff now T) : Within T { c with now := now } :=
  ⟨⟨hv, h.usec.2⟩, ht, h.pause, h.probe, h.publish⟩

theorem Within.ticks {T : TV} {c c' : Core} (h : Within T c) (k : Ticks c c') (e : c'.probe = c.probe) : Within T c' := by
  have h1 := h.usec
  have h2 := h.now
  refine ⟨?_, by rw [k.now]; exact h2, ?_, by rw [e]; exact h.probe, ?_⟩
  · rw [k.now]
    refine ⟨h1.1, ?_⟩
    rcases k.pause with e | e
    · rw [e]; exact h1.2
    · rw [e]
      dsimp only
      omega
  · rcases k.pause with e | e
    · rw [e]; exact h.pause
    · rw [e]
      unfold tvdiff at *
      dsimp only
      omega
  · rcases k.publish with e | e
    · rw [e]; exact h.publish
    · rw [e]
      unfold tvdiff at *
      omega

theorem rounded_sec (s : Nat) : rounded ⟨s, 0⟩ = ⟨s, 0⟩ := rfl

theorem SleepR.within {T now t : TV} {c c' : Core} {l l' : Lists} (n : SleepR now c l t c' l') (h : Within T c)
    (hv : now.usec < 1000000) (ht : 2000000 + (t.sec : Int) * 1000000 ≤ tvdiff now T) : Within T c' := by
  have hn : 2000000 ≤ tvdiff now T := by omega
  cases n with
  | busy => exact ⟨h.usec, h.now, h.pause, h.probe, h.publish⟩
  | idle =>
    refine ⟨⟨hv, h.usec.2⟩, hn, ?_, h.probe, h.publish⟩
    have := h.usec.2
    rw [rounded_sec] at ht
    unfold tvdiff at *
    dsimp only at *
    omega
  | _ => exact ⟨⟨hv, h.usec.2⟩, hn, h.pause, h.probe, h.publish⟩

theorem OutMsg.within {env : Env} {T : TV} {c : Core} {l : Lists} {ret : Nat} {m : Out} {to : Addr} {c' : Core}
    {l' : Lists} (n : OutMsg env c l ret m to c' l') (h : Within T c) : Within T c' := by
  have e := Core.conf_eq n.conf
  have h2 := h.now
  refine ⟨?_, ?_, ?_, ?_, ?_⟩
  · rw [e.1, e.2.2.1]
    exact h.usec
  · rw [e.1]
    exact h.now
  · rw [e.2.2.1]
    exact h.pause
  · rcases n.probe with ⟨_, h3, _⟩ | ⟨_, h3⟩
    · rw [h3]
      unfold tvdiff at *
      dsimp only
      omega
    · rw [h3]
      exact h.probe
  · rcases n.publish with h3 | h3 | h3
    · rw [h3]; exact h.publish
    · rw [h3]
      unfold tvdiff at *
      omega
    · rw [h3]
      unfold tvdiff at *
      dsimp only
      omega

theorem Did.within {env : Env} {T : TV} {o : Op} {c c' : Core} {l l' : Lists} {a : OpOut} (n : Did env o c l a c' l')
    (h : Within T c) (ht : Call.before T (o, a)) : Within T c' := by
  have go : Ticks c c' → ¬ o.isUnique → ¬ o.isSend → Within T c' := fun k hu hs => h.ticks k (n.probe hu hs)
  cases n with
  | setFamily => exact go (.same rfl rfl rfl) id id
  | setAddress n => exact go n.ticks id id
  | setIpv6Address n => exact go n.ticks id id
  | shutdown _ n => exact go n.ticks id id
  | receiveCallback => exact go (.same rfl rfl rfl) id id
  | @recv now m src ret _ _ _ _ wf n =>
    have ht : now.usec < 1000000 ∧ 2000000 ≤ tvdiff now T := ht
    rcases n.ticks wf with k | k
    · exact h.ticks k (n.asked wf).probe
    · exact (h.atNow ht.1 ht.2).ticks k (n.asked wf).probe
  | send n =>
    have ht : _ ∧ 2000000 ≤ tvdiff _ T := ht
    exact n.within (h.atNow ht.1 ht.2)
  | sleep n =>
    have ht : _ ∧ 2000000 + _ ≤ tvdiff _ T := ht
    exact n.within h ht.1 ht.2
  | query e n => exact go (.rest n.rest) id id
  | shared => exact go (.same rfl rfl rfl) id id
  | unique =>
    refine ⟨h.usec, h.now, h.pause, ?_, h.publish⟩
    have := h.now
    show tvdiff T c.now ≤ 0
    unfold tvdiff at *
    omega
  | done hx => exact go (.done _ _ _ _) id id
  | setRaw hx => exact go (.set _ _ _ _) id id
  | setHost hx => exact go (.set _ _ _ _) id id
  | setIp hx => exact go (.set _ _ _ _) id id
  | setIpv6 hx => exact go (.set _ _ _ _) id id
  | setSrv hx => exact go (.set _ _ _ _) id id
  | setAddresses n => exact go n.ticks id id
  | setIpv6Addresses n => exact go n.ticks id id
  | setInterface n => exact go n.ticks id id
  | clear n e i z tm =>
    exact go (.same (congrArg Core.now e : c'.recfree.now = c.recfree.now) tm.2.2 tm.2.1) id id
  | stepEnd => exact go (.same rfl rfl rfl) id id

/-- Two seconds after everything all timers have run out. -/
theorem Calls.within {env : Env} {cls frame : Nat} {now T : TV} {h : List Call} {d : D Ptrs}
    (n : Calls env (newD cls frame now) h d) (hv : now.usec < 1000000) (h0 : 2000000 ≤ tvdiff now T)
    (ht : ∀ k ∈ h, Call.before T k) : Within T d.c := by
  refine n.induct (P := fun _ c _ => Within T c) (.new cls frame now) ?_ ?_
  · refine ⟨⟨hv, by show (0 : Nat) < _; omega⟩, h0, ?_, ?_, ?_⟩ <;>
    · show tvdiff T {} ≤ 0
      unfold tvdiff at *
      dsimp only
      omega
  · rintro h1 c l o a c' l' ⟨h2, e⟩ p hi hu hso hdid hi'
    exact hdid.within p (ht _ (by rw [e]; simp))

end Mdns
