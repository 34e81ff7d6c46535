import Verif.Lemmas.Life

/-!
# Pending unicast answers and the probe timer
-/

namespace Mdns

/-- No new unicast answers, and the probe timer is unchanged. -/
structure Slow (c c' : Core) : Prop where
  uans : ∀ u ∈ c'.uanswers, u ∈ c.uanswers
  probe : c'.probe = c.probe

theorem Slow.refl (c : Core) : Slow c c := ⟨fun _ m => m, rfl⟩

theorem Slow.trans {a b c : Core} (h : Slow a b) (h' : Slow b c) : Slow a c :=
  ⟨fun u m => h.uans u (h'.uans u m), h'.probe.trans h.probe⟩

theorem Slow.same {c c' : Core} (h : c'.uanswers = c.uanswers) (hp : c'.probe = c.probe) : Slow c c' :=
  ⟨fun _ m => h ▸ m, hp⟩

theorem Slow.from {c c1 c' : Core} (h : Slow c1 c') (e : c1.uanswers = c.uanswers) (e' : c1.probe = c.probe) :
    Slow c c' := (Slow.same e e').trans h

theorem Slow.rest {c c' : Core} (e : c'.rest = c.rest) : Slow c c' :=
  .same (congrArg Core.uanswers e : c'.rest.uanswers = c.rest.uanswers)
    (congrArg Core.probe e : c'.rest.probe = c.rest.probe)

theorem Slow.locals {env : Env} {c c' : Core} (h : Locals env c c') : Slow c c' := by
  obtain ⟨a, b, n, rfl, _⟩ := h
  exact .same rfl rfl

theorem Slow.dropRec (c : Core) (r : Nat) (x : Rec) : Slow c (c.dropRec r x) :=
  ⟨fun _ m => (List.mem_filter.mp m).1, rfl⟩

theorem Slow.send (c : Core) (l : Lists) (r : Nat) (x : Rec) : Slow c (sendSt c l r x).c := by
  unfold sendSt
  split
  · exact .same rfl rfl
  · split
    · exact .same rfl rfl
    · exact .same rfl rfl

theorem Slow.publish (c : Core) (l : Lists) (r : Nat) (x : Rec) : Slow c (publishSt c l r x).c := by
  unfold publishSt
  split
  · exact .same rfl rfl
  · exact .same rfl rfl

theorem Slow.set (c : Core) (l : Lists) (r : Nat) (x : Rec) : Slow c (setSt c l r x).c :=
  (Slow.publish _ l r x).from rfl rfl

theorem Slow.done (c : Core) (l : Lists) (r : Nat) (x : Rec) : Slow c (doneSt c l r x).c := by
  unfold doneSt
  split
  · exact Slow.dropRec ..
  · exact (Slow.send _ l r _).from rfl rfl

/-! ### Receiving -/

theorem AnsL.slow {env : Env} {src : Addr} {q : Question} {an : List Resource} {rs : List Nat} {s t : ISt}
    (n : AnsL env src q an rs s t) : Slow s.c t.c := by
  induction n with
  | done h => exact .refl _
  | quiet _ _ _ hl _ _ ih => exact (Slow.locals hl).trans ih
  | conflict _ _ _ hl _ _ ih => 
    exact (Slow.locals hl).trans (((Slow.dropRec _ _ _).trans ih).from rfl rfl)
  | known _ _ _ _ _ _ ih => exact ih.from rfl rfl
  | send _ _ _ _ _ _ ih => exact ((Slow.send _ _ _ _).trans ih).from rfl rfl

theorem SendL.slow {rs : List Nat} {c c' : Core} {l l' : Lists} (n : SendL rs c l c' l') : Slow c c' := by
  induction n with
  | done h => exact .refl _
  | send _ _ _ ih => exact (Slow.send _ _ _ _).trans ih

/-- New unicast answers are for the sender of the message. -/
structure Asked (m : Msg) (src : Addr) (c c' : Core) : Prop where
  uans : ∀ u ∈ c'.uanswers, u ∈ c.uanswers ∨ (u.to = src ∧ u.id = m.id ∧ src.port ≠ 5353)
  probe : c'.probe = c.probe

theorem Slow.asked {m : Msg} {src : Addr} {c c' : Core} (h : Slow c c') : Asked m src c c' :=
  ⟨fun u m => .inl (h.uans u m), h.probe⟩

theorem Asked.trans {m : Msg} {src : Addr} {a b c : Core} (h : Asked m src a b) (h' : Asked m src b c) :
    Asked m src a c := by
  refine ⟨fun u hu => ?_, h'.probe.trans h.probe⟩
  rcases h'.uans u hu with hu | hu
  · exact h.uans u hu
  · exact .inr hu

theorem InQ.asked {env : Env} {m : Msg} {src : Addr} {q : Question} {did did' : Bool} {c c' : Core} {l l' : Lists}
    (n : InQ env m src q did c l did' c' l') : Asked m src c c' := by
  cases n with
  | none h => exact (Slow.refl _).asked
  | disco _ _ _ n => exact (Slow.from (c := c) n.slow rfl rfl).asked
  | multi _ _ _ n => exact n.slow.asked
  | uni _ _ _ n hp =>
    have := n.slow
    refine ⟨fun u hu => ?_, this.probe⟩
    rcases List.mem_cons.mp hu with rfl | hu
    · exact .inr ⟨rfl, rfl, hp.2⟩
    · exact .inl (this.uans u hu)

theorem InQs.asked {env : Env} {m : Msg} {src : Addr} {qs : List Question} {did : Bool} {c c' : Core} {l l' : Lists}
    (n : InQs env m src qs did c l c' l') : Asked m src c c' := by
  induction n with
  | nil => exact (Slow.refl _).asked
  | cons _ h _ ih => exact h.asked.trans ih

theorem InA.slow {env : Env} {src : Addr} {a : Resource} {did did' : Bool} {c c' : Core} {l l' : Lists}
    (n : InA env src a did c l did' c' l') (ha : a.WF) (h : DInv c l) : Slow c c' := by
  cases n with
  | cache _ e => exact (Slow.rest (cacheIn_recs (h.cinv.received a) ha e)).from rfl rfl
  | own _ hl => exact .locals hl
  | @conflict r x c1 _ _ hl hx hu e =>
    have i := done_inv h hl hx
    have h1 : Slow c1 _ := (Slow.done (c1.heard [.conflict r x.rr.name x.rr.type]) l r x).from rfl rfl
    exact (Slow.locals hl).trans (h1.trans ((Slow.rest (cacheIn_recs (i.cinv.received a) ha e)).from rfl rfl))

theorem InAs.slow {env : Env} {src : Addr} {as : List Resource} {did : Bool} {c c' : Core} {l l' : Lists}
    (n : InAs env src as did c l c' l') (ha : ∀ a ∈ as, a.WF) : Slow c c' := by
  induction n with
  | nil => exact .refl _
  | cons i h _ ih => exact (h.slow (ha _ (by simp)) i).trans (ih fun a m => ha a (by simp [m]))

theorem InMsg.asked {env : Env} {now : TV} {m : Msg} {src : Addr} {c c' : Core} {l l' : Lists} {ret : Nat}
    (n : InMsg env now m src c l ret c' l') (ha : ∀ a ∈ m.an, a.WF) : Asked m src c c' := by
  cases n with
  | shutdown => exact (Slow.refl _).asked
  | own _ hl _ => exact (Slow.from (c := c) (Slow.locals hl) rfl rfl).asked
  | query _ _ hl _ n => exact (Slow.from (c := c) (Slow.locals hl) rfl rfl).asked.trans n.asked
  | response _ _ hl _ n => exact (Slow.from (c := c) ((Slow.locals hl).trans (n.slow ha)) rfl rfl).asked

/-! ### Sending -/

theorem ROut.slow {w : W} {s t : OSt} (n : ROut w s t) : Slow s.c t.c := by
  induction n with
  | empty h => exact .refl _
  | full h => exact .refl _
  | skip _ _ _ _ _ _ ih => exact ih
  | send _ _ _ _ _ _ _ ih => exact ih.from rfl rfl
  | bye _ _ _ _ _ _ _ ih => exact (Slow.dropRec _ _ _).trans ih

theorem PubL.slow {pre suf : List Nat} {s t : OSt} (n : PubL pre suf s t) : Slow s.c t.c := by
  induction n with
  | done h => exact .refl _
  | full h => exact .refl _
  | keep _ _ _ _ _ _ _ ih => exact ih.from rfl rfl
  | last _ _ _ _ _ _ _ ih => exact ih.from rfl rfl
  | bye _ _ _ _ _ _ ih => exact (Slow.dropRec _ _ _).trans ih

theorem ProbeA.slow {pre suf : List Nat} {s t : OSt} (n : ProbeA pre suf s t) : Slow s.c t.c := by
  induction n with
  | done h => exact .refl _
  | verified _ _ _ _ _ ih => exact ih.from rfl rfl
  | ask _ _ _ _ _ ih => exact ih.from rfl rfl

theorem ProbeB.slow {pre suf : List Nat} {s t : OSt} (n : ProbeB pre suf s t) : Slow s.c t.c := by
  induction n with
  | done h => exact .refl _
  | propose _ _ _ _ _ ih => exact ih.from rfl rfl

theorem PubOpt.slow {s t : OSt} (n : PubOpt s t) : Slow s.c t.c := by
  cases n with
  | no => exact .refl _
  | @yes t _ _ _ n =>
    refine n.slow.trans ?_
    show Slow t.c (if _ then _ else _)
    split
    · exact .same rfl rfl
    · exact .refl _

theorem PauseOpt.slow {s t : OSt} (n : PauseOpt s t) : Slow s.c t.c := by
  cases n with
  | no => exact .refl _
  | yes _ _ n => exact n.slow

theorem ProbeOpt.uans {s t : OSt} (n : ProbeOpt s t) : ∀ u ∈ t.c.uanswers, u ∈ s.c.uanswers := by
  cases n with
  | no => exact fun _ m => m
  | @yes _ t _ _ n n' =>
    have := (n.slow.trans n'.slow).uans
    intro u m
    have e : (if t.ret ≠ 0 then { t.c with probe := ⟨t.c.now.sec, t.c.now.usec + 250000⟩ } else t.c : Core).uanswers =
        t.c.uanswers := by split <;> rfl
    exact this u (e ▸ m)

theorem GcOpt.rest {env : Env} {c c' : Core} (n : GcOpt env c c') : c'.uanswers = c.uanswers ∧ c'.probe = c.probe ∧
    c'.publish = c.publish ∧ c'.now = c.now := by
  cases n with
  | no => exact ⟨rfl, rfl, rfl, rfl⟩
  | yes hc hn e =>
    obtain ⟨c1, evs, e1, s1, _⟩ := hc.gc env
    rw [e1] at e
    cases e
    exact ⟨(congrArg Core.uanswers s1.rest : c1.rest.uanswers = c.rest.uanswers),
      (congrArg Core.probe s1.rest : c1.rest.probe = c.rest.probe),
      (congrArg Core.publish s1.rest : c1.rest.publish = c.rest.publish),
      (congrArg Core.now s1.rest : c1.rest.now = c.rest.now)⟩

theorem OutRest.uans {env : Env} {s : OSt} {ret : Nat} {m : Out} {c : Core} {l : Lists} (n : OutRest env s ret m c l) :
    ∀ u ∈ c.uanswers, u ∈ s.c.uanswers := by
  cases n with
  | answers np _ _ => exact np.slow.uans
  | probes np _ _ nb _ => exact fun u m => np.slow.uans u (nb.uans u m)
  | questions np _ _ nb _ nq ng =>
    intro u m
    rw [ng.rest.1] at m
    exact np.slow.uans u (nb.uans u ((Slow.rest nq.rest).uans u m))

theorem OutMsg.uans {env : Env} {c : Core} {l : Lists} {ret : Nat} {m : Out} {to : Addr} {c' : Core} {l' : Lists}
    (n : OutMsg env c l ret m to c' l') : ∀ u ∈ c'.uanswers, u ∈ c.uanswers := by
  cases n with
  | unicast hu _ _ =>
    intro u m
    rw [hu]
    exact List.mem_cons_of_mem _ m
  | shutdown _ n1 n2 _ => exact (n1.slow.trans n2.slow).uans
  | normal _ n1 n2 _ n3 => exact fun u m => (n1.slow.trans n2.slow).uans u (n3.uans u m)

/-! ### The other calls -/

theorem SetL.slow {type : Nat} {a : Ip} {rs : List Nat} {c c' : Core} {l l' : Lists}
    (n : SetL type a rs c l c' l') : Slow c c' := by
  induction n with
  | nil h => exact .refl _
  | skip _ _ _ _ ih => exact ih
  | set _ _ _ _ ih => exact (Slow.set _ _ _ _).trans ih

theorem ByeL.slow {p : Rec → Prop} {rs : List Nat} {c c' : Core} {l l' : Lists}
    (n : ByeL p rs c l c' l') : Slow c c' := by
  induction n with
  | nil h => exact .refl _
  | skip _ _ _ _ ih => exact ih
  | bye _ _ _ _ _ ih => exact ih.from rfl rfl

theorem AddA.slow {host : Bytes} {type ttl : Nat} {wants : List Ip} {c c' : Core} {l l' : Lists}
    (n : AddA host type ttl wants c l c' l') : Slow c c' := by
  induction n with
  | nil h => exact .refl _
  | there _ _ _ ih => exact ih
  | new _ _ _ ih => exact ((Slow.set _ _ _ _).trans ih).from rfl rfl

theorem DropA.slow {host : Bytes} {type : Nat} {want : List Ip} {rs : List Nat} {c c' : Core}
    {l l' : Lists} (n : DropA host type want rs c l c' l') : Slow c c' := by
  induction n with
  | nil h => exact .refl _
  | keep _ _ _ _ ih => exact ih
  | drop _ _ _ _ ih => exact (Slow.done _ _ _ _).trans ih

theorem UpdA.slow {host : Bytes} {type : Nat} {want : List Ip} {c c' : Core} {l l' : Lists}
    (n : UpdA host type want c l c' l') : Slow c c' := by
  cases n with
  | mk h ht a d => exact a.slow.trans d.slow

theorem IfA.slow {v4 : List Ip4} {v6 : List Ip6} {hosts : List Bytes} {c c' : Core} {l l' : Lists}
    (n : IfA v4 v6 hosts c l c' l') : Slow c c' := by
  induction n with
  | nil h => exact .refl _
  | cons a b _ ih => exact (a.slow.trans b.slow).trans ih

theorem Addr4.slow {a : Ip4} {c c' : Core} {l l' : Lists} (n : Addr4 a c l c' l') : Slow c c' := by
  cases n with
  | same => exact .refl _
  | set _ _ n => exact n.slow.trans (.same rfl rfl)
  | bye _ _ n => exact n.slow.trans (.same rfl rfl)

theorem Addr6.slow {a : Ip6} {c c' : Core} {l l' : Lists} (n : Addr6 a c l c' l') : Slow c c' := by
  cases n with
  | same => exact .refl _
  | set _ _ n => exact n.slow.trans (.same rfl rfl)
  | bye _ _ n => exact n.slow.trans (.same rfl rfl)

theorem Shut.slow {c c' : Core} {l l' : Lists} (n : Shut c l c' l') : Slow c c' := by
  cases n with
  | mk n => exact n.slow.trans (.same rfl rfl)

theorem SleepR.slow {now t : TV} {c c' : Core} {l l' : Lists} (n : SleepR now c l t c' l') : Slow c c' := by
  cases n with
  | _ => exact .same rfl rfl

/-- Unicast answers wait only for the senders of received messages that do not use port 5353. -/
theorem Did.uans {env : Env} {o : Op} {c c' : Core} {l l' : Lists} {a : OpOut} (n : Did env o c l a c' l') :
    ∀ u ∈ c'.uanswers, u ∈ c.uanswers ∨
      ∃ now m src, o = .recv now m src ∧ u.to = src ∧ u.id = m.id ∧ src.port ≠ 5353 := by
  have go : Slow c c' → ∀ u ∈ c'.uanswers, u ∈ c.uanswers ∨
      ∃ now m src, o = .recv now m src ∧ u.to = src ∧ u.id = m.id ∧ src.port ≠ 5353 :=
    fun h u m => .inl (h.uans u m)
  cases n with
  | setFamily => exact go (.same rfl rfl)
  | setAddress n => exact go n.slow
  | setIpv6Address n => exact go n.slow
  | shutdown _ n => exact go n.slow
  | receiveCallback => exact go (.same rfl rfl)
  | recv wf n =>
    intro u m
    rcases (n.asked wf).uans u m with h | h
    · exact .inl h
    · exact .inr ⟨_, _, _, rfl, h⟩
  | send n => exact fun u m => .inl (n.uans u m)
  | sleep n => exact go n.slow
  | query e n => exact go (.rest n.rest)
  | shared => exact go (.same rfl rfl)
  | unique => exact fun u m => .inl m
  | done hx => exact go (.done _ _ _ _)
  | setRaw hx => exact go (.set _ _ _ _)
  | setHost hx => exact go (.set _ _ _ _)
  | setIp hx => exact go (.set _ _ _ _)
  | setIpv6 hx => exact go (.set _ _ _ _)
  | setSrv hx => exact go (.set _ _ _ _)
  | setAddresses n => exact go n.slow
  | setIpv6Addresses n => exact go n.slow
  | setInterface n => exact go n.slow
  | clear n e i z tm =>
    intro u m
    rw [n.uanswers] at m
    cases m
  | stepEnd => exact go (.same rfl rfl)

/-- The calls that start a probe at once. -/
def Op.isUnique : Op → Prop
  | .unique _ _ _ _ => True
  | _ => False

/-- The calls that make a packet. -/
def Op.isSend : Op → Prop
  | .send _ => True
  | _ => False

/-- The probe timer changes only when packets are made or a unique record is made. -/
theorem Did.probe {env : Env} {o : Op} {c c' : Core} {l l' : Lists} {a : OpOut} (n : Did env o c l a c' l')
    (hu : ¬ o.isUnique) (hs : ¬ o.isSend) : c'.probe = c.probe := by
  cases n with
  | setFamily => rfl
  | setAddress n => exact n.slow.probe
  | setIpv6Address n => exact n.slow.probe
  | shutdown _ n => exact n.slow.probe
  | receiveCallback => rfl
  | recv wf n => exact (n.asked wf).probe
  | send n => exact absurd trivial hs
  | sleep n => exact n.slow.probe
  | query e n => exact (Slow.rest n.rest).probe
  | shared => rfl
  | unique => exact absurd trivial hu
  | done hx => exact (Slow.done _ _ _ _).probe
  | setRaw hx => exact (Slow.set _ _ _ _).probe
  | setHost hx => exact (Slow.set _ _ _ _).probe
  | setIp hx => exact (Slow.set _ _ _ _).probe
  | setIpv6 hx => exact (Slow.set _ _ _ _).probe
  | setSrv hx => exact (Slow.set _ _ _ _).probe
  | setAddresses n => exact n.slow.probe
  | setIpv6Addresses n => exact n.slow.probe
  | setInterface n => exact n.slow.probe
  | clear n e i z tm => exact tm.1
  | stepEnd => rfl

end Mdns
