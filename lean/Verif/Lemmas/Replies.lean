import Verif.Lemmas.Lives
import Verif.Lemmas.Receive
import Verif.Lemmas.Packet
import Verif.Lemmas.Sending
import Verif.Lemmas.Timers

/-!
# Where packets go
-/

namespace Mdns

/-! ### What calls leave alone -/

/-- What is set once. -/
def Core.fixed (c : Core) : Nat × Nat × Family := (c.cls, c.frame, c.family)

theorem fixed_rest {c c' : Core} (h : c'.rest = c.rest) : c'.fixed = c.fixed :=
  (congrArg Core.fixed h : c'.rest.fixed = c.rest.fixed)

theorem fixed_recfree {c c' : Core} (h : c'.recfree = c.recfree) : c'.fixed = c.fixed :=
  (congrArg Core.fixed h : c'.recfree.fixed = c.recfree.fixed)

theorem Locals.fixed {env : Env} {c c' : Core} (h : Locals env c c') : c'.fixed = c.fixed := by
  obtain ⟨_, _, _, rfl, _⟩ := h
  rfl

theorem sendSt_fixed (c : Core) (l : Lists) (r : Nat) (x : Rec) : (sendSt c l r x).c.fixed = c.fixed :=
  fixed_recfree (sendSt_recfree c l r x)

theorem AnsL.fixed {env : Env} {src : Addr} {q : Question} {an : List Resource} {rs : List Nat} {s t : ISt}
    (n : AnsL env src q an rs s t) : t.c.fixed = s.c.fixed := by
  induction n with
  | done h => rfl
  | quiet _ _ _ hl _ _ ih => exact ih.trans hl.fixed
  | conflict _ _ _ hl _ _ ih => exact ih.trans hl.fixed
  | known _ _ _ _ _ _ ih => exact ih
  | send _ _ _ _ _ _ ih => exact ih.trans (sendSt_fixed ..)

theorem InQ.fixed {env : Env} {m : Msg} {src : Addr} {q : Question} {did did' : Bool} {c c' : Core} {l l' : Lists}
    (n : InQ env m src q did c l did' c' l') : c'.fixed = c.fixed := by
  cases n with
  | none _ => rfl
  | disco _ _ _ n => exact (fixed_recfree n.recfree).trans rfl
  | multi _ _ _ n _ => exact n.fixed
  | uni _ _ _ n _ => exact n.fixed

theorem InQs.fixed {env : Env} {m : Msg} {src : Addr} {qs : List Question} {did : Bool} {c c' : Core} {l l' : Lists}
    (n : InQs env m src qs did c l c' l') : c'.fixed = c.fixed := by
  induction n with
  | nil => rfl
  | cons _ h _ ih => exact ih.trans h.fixed

theorem InA.fixed {env : Env} {src : Addr} {a : Resource} {did did' : Bool} {c c' : Core} {l l' : Lists}
    (n : InA env src a did c l did' c' l') (ha : a.WF) (h : DInv c l) : c'.fixed = c.fixed := by
  cases n with
  | cache _ e => exact (fixed_rest (cacheIn_recs (h.cinv.received a) ha e)).trans rfl
  | own _ hl => exact hl.fixed
  | @conflict r x c1 _ _ hl hx hu e =>
    have i := done_inv h hl hx
    refine (fixed_rest (cacheIn_recs (i.cinv.received a) ha e)).trans (Eq.trans ?_ hl.fixed)
    have := fixed_recfree (doneSt_recfree (c1.heard [.conflict r x.rr.name x.rr.type]) l r x)
    exact this

theorem InAs.fixed {env : Env} {src : Addr} {as : List Resource} {did : Bool} {c c' : Core} {l l' : Lists}
    (n : InAs env src as did c l c' l') (ha : ∀ a ∈ as, a.WF) : c'.fixed = c.fixed := by
  induction n with
  | nil => rfl
  | cons i h _ ih => exact (ih fun a m => ha a (by simp [m])).trans (h.fixed (ha _ (by simp)) i)

theorem InMsg.fixed {env : Env} {now : TV} {m : Msg} {src : Addr} {c c' : Core} {l l' : Lists} {ret : Nat}
    (n : InMsg env now m src c l ret c' l') (ha : ∀ a ∈ m.an, a.WF) : c'.fixed = c.fixed := by
  cases n with
  | shutdown => rfl
  | own _ hl _ => exact hl.fixed
  | query _ _ hl _ n => exact n.fixed.trans hl.fixed
  | response _ _ hl _ n => exact (n.fixed ha).trans hl.fixed

theorem ROut.fixed {w : W} {s t : OSt} (n : ROut w s t) : t.c.fixed = s.c.fixed := fixed_recfree n.recfree

/-- The address family after a call. -/
def Op.family (f : Family) : Op → Family
  | .setFamily g => g
  | _ => f

theorem OutRest.fixed {env : Env} {s : OSt} {ret : Nat} {m : Out} {c : Core} {l : Lists} (n : OutRest env s ret m c l) :
    c.fixed = s.c.fixed := by
  cases n with
  | answers np => exact fixed_recfree np.recfree
  | probes np _ _ nb => exact fixed_recfree (nb.recfree.trans np.recfree)
  | questions np _ _ nb _ nq ng =>
    have h1 : _ = s.c.fixed := fixed_recfree (nb.recfree.trans np.recfree)
    refine Eq.trans ?_ ((fixed_rest nq.rest).trans h1)
    cases ng with
    | no => rfl
    | yes h hn e =>
      obtain ⟨c1, evs, e1, s1, _⟩ := h.gc env
      rw [e1] at e
      cases e
      exact (fixed_rest s1.rest).trans rfl

theorem OutMsg.fixed {env : Env} {c : Core} {l : Lists} {ret : Nat} {m : Out} {to : Addr} {c' : Core} {l' : Lists}
    (n : OutMsg env c l ret m to c' l') : c'.fixed = c.fixed := by
  cases n with
  | unicast => rfl
  | shutdown _ n1 n2 _ => exact fixed_recfree (n2.recfree.trans n1.recfree)
  | normal _ n1 n2 _ n3 => exact n3.fixed.trans (fixed_recfree (n2.recfree.trans n1.recfree))

theorem Did.fixed {env : Env} {o : Op} {c c' : Core} {l l' : Lists} {a : OpOut} (n : Did env o c l a c' l') :
    c'.fixed = (c.cls, c.frame, o.family c.family) := by
  cases n with
  | setFamily => rfl
  | setAddress n =>
    cases n with
    | same _ => rfl
    | set _ _ n => have := fixed_recfree n.recfree; exact this
    | bye _ _ n => have := fixed_recfree n.recfree; exact this
  | setIpv6Address n =>
    cases n with
    | same _ => rfl
    | set _ _ n => have := fixed_recfree n.recfree; exact this
    | bye _ _ n => have := fixed_recfree n.recfree; exact this
  | shutdown _ n =>
    obtain ⟨n⟩ := n
    have := fixed_recfree n.recfree
    exact this
  | receiveCallback => rfl
  | recv wf n => exact n.fixed wf
  | send n => exact n.fixed
  | sleep n => cases n <;> rfl
  | query e n => exact fixed_rest n.rest
  | shared => rfl
  | unique => rfl
  | done hx => exact fixed_recfree (doneSt_recfree _ _ _ _)
  | setRaw hx => exact fixed_recfree (setSt_recfree _ _ _ _)
  | setHost hx => exact fixed_recfree (setSt_recfree _ _ _ _)
  | setIp hx => exact fixed_recfree (setSt_recfree _ _ _ _)
  | setIpv6 hx => exact fixed_recfree (setSt_recfree _ _ _ _)
  | setSrv hx => exact fixed_recfree (setSt_recfree _ _ _ _)
  | setAddresses n => exact fixed_recfree n.recfree
  | setIpv6Addresses n => exact fixed_recfree n.recfree
  | setInterface n => exact fixed_recfree n.recfree
  | clear _ e _ _ _ => exact fixed_recfree e
  | stepEnd => rfl

/-! ### The id of a packet -/

theorem ROut.id {w : W} {s t : OSt} (n : ROut w s t) : t.m.id = s.m.id := by
  induction n with
  | empty => rfl
  | full => rfl
  | skip _ _ _ _ _ _ ih => exact ih
  | send _ _ _ _ _ _ _ ih => exact ih
  | bye _ _ _ _ _ _ _ ih => exact ih

theorem PubL.id {pre suf : List Nat} {s t : OSt} (n : PubL pre suf s t) : t.m.id = s.m.id := by
  induction n with
  | done => rfl
  | full => rfl
  | keep _ _ _ _ _ _ _ ih => exact ih
  | last _ _ _ _ _ _ _ ih => exact ih
  | bye _ _ _ _ _ _ ih => exact ih

theorem ProbeA.id {pre suf : List Nat} {s t : OSt} (n : ProbeA pre suf s t) : t.m.id = s.m.id := by
  induction n with
  | done => rfl
  | verified _ _ _ _ _ ih => exact ih
  | ask _ _ _ _ _ ih => exact ih

theorem ProbeB.id {pre suf : List Nat} {s t : OSt} (n : ProbeB pre suf s t) : t.m.id = s.m.id := by
  induction n with
  | done => rfl
  | propose _ _ _ _ _ ih => exact ih

theorem PubOpt.id {s t : OSt} (n : PubOpt s t) : t.m.id = s.m.id := by
  cases n with
  | no => rfl
  | yes _ _ _ n => exact n.id

theorem PauseOpt.id {s t : OSt} (n : PauseOpt s t) : t.m.id = s.m.id := by
  cases n with
  | no => rfl
  | yes _ _ n => exact n.id

theorem ProbeOpt.id {s t : OSt} (n : ProbeOpt s t) : t.m.id = s.m.id := by
  cases n with
  | no => rfl
  | yes _ _ n n' => exact n'.id.trans n.id

theorem knownLoop_id (c : Core) (x : Query) : ∀ (es : List Cached) (m : Out), (knownLoop c x es m).id = m.id
  | [], m => rfl
  | e :: es, m => by
    unfold knownLoop
    repeat' split
    all_goals first | rfl | (rw [knownLoop_id]; done) | (rw [knownLoop_id]; rfl)

theorem Upd.id {env : Env} {suf : List Nat} {s t : QSt} (n : Upd env suf s t) : t.m.id = s.m.id := by
  induction n with
  | done => rfl
  | idle _ _ _ _ ih => exact ih
  | again _ _ _ _ _ _ _ _ _ ih => exact ih
  | ask _ _ _ _ _ ih => exact ih.trans (knownLoop_id ..)

theorem QuestOpt.id {env : Env} {m m' : Out} {c c' : Core} {ret : Nat} (n : QuestOpt env m c ret m' c') : m'.id = m.id := by
  cases n with
  | no => rfl
  | yes _ _ n => exact n.id

theorem OutRest.id {env : Env} {s : OSt} {ret : Nat} {m : Out} {c : Core} {l : Lists} (n : OutRest env s ret m c l) :
    m.id = s.m.id := by
  cases n with
  | answers np na => exact na.id.trans np.id
  | probes np na _ nb => exact nb.id.trans (na.id.trans np.id)
  | questions np na _ nb _ nq ng => exact nq.id.trans (nb.id.trans (na.id.trans np.id))

/-- A packet goes to everyone and has no id, or it is the reply that was asked for last. -/
theorem OutMsg.goes {env : Env} {c : Core} {l : Lists} {ret : Nat} {m : Out} {to : Addr} {c' : Core} {l' : Lists}
    (n : OutMsg env c l ret m to c' l') :
    (c.uanswers = [] ∧ c'.uanswers = [] ∧ to = mcast c.family ∧ m.id = 0) ∨
    ∃ u us, c.uanswers = u :: us ∧ c'.uanswers = us ∧ to = u.to ∧ m.id = u.id ∧ ∃ xs : List Nat, 
      m.tags = (.an, u.r) :: xs.map fun r => (.ar, r) := by
  have hk := n.kind
  have hn := n.uans
  cases n with
  | unicast hu hx na =>
    obtain ⟨xs, e⟩ := na.tags
    exact .inr ⟨_, _, hu, rfl, rfl, na.id, xs, by rw [e, put_tags]; rfl⟩
  | shutdown hu n1 n2 =>
    refine .inl ⟨hu, ?_, rfl, n2.id.trans n1.id⟩
    exact List.eq_nil_iff_forall_not_mem.mpr fun u m => by
      have := hn u m
      rw [hu] at this
      cases this
  | normal hu n1 n2 _ n3 =>
    refine .inl ⟨hu, ?_, rfl, n3.id.trans (n2.id.trans n1.id)⟩
    exact List.eq_nil_iff_forall_not_mem.mpr fun u m => by
      have := hn u m
      rw [hu] at this
      cases this

/-! ### Replies to questions -/

/-- The reply is to a question of the message about the record. -/
structure RepliesTo (m : Msg) (src : Addr) (c : Core) (u : Unicast) : Prop where
  to : u.to = src
  id : u.id = m.id
  port : src.port ≠ 5353
  asked : ∃ q ∈ m.qd, ∃ x, c.recs u.r = some x ∧ q.about c.cls x.rr

/-- Records are only dropped. -/
def Fewer (c c' : Core) : Prop := ∀ r x, c'.recs r = some x → c.recs r = some x

theorem Fewer.trans {a b c : Core} (h : Fewer a b) (h' : Fewer b c) : Fewer a c := fun r x hx => h r x (h' r x hx)

theorem Fewer.of_eq {c c' : Core} (h : c'.recs = c.recs) : Fewer c c' := fun _ _ hx => h ▸ hx

theorem AnsL.fewer {env : Env} {src : Addr} {q : Question} {an : List Resource} {rs : List Nat} {s t : ISt}
    (n : AnsL env src q an rs s t) : Fewer s.c t.c := by
  induction n with
  | done h => exact .of_eq rfl
  | quiet _ _ _ hl _ _ ih => exact (Fewer.of_eq hl.recs).trans ih
  | @conflict r rs s t x c1 h hx hu hl ha n ih =>
    refine (Fewer.of_eq hl.recs).trans (Fewer.trans (fun r' x' hx' => ?_) ih)
    change upd c1.recs r none r' = some x' at hx'
    unfold upd at hx'
    split at hx'
    · cases hx'
    · exact hx'
  | known _ _ _ _ _ _ ih => exact ih
  | @send r rs s t x evs _ _ _ _ _ _ ih => exact (Fewer.of_eq (sendSt_recs (s.c.heard evs) s.l r x)).trans ih

theorem InQ.fewer {env : Env} {m : Msg} {src : Addr} {q : Question} {did did' : Bool} {c c' : Core} {l l' : Lists}
    (n : InQ env m src q did c l did' c' l') : Fewer c c' := by
  cases n with
  | none _ => exact .of_eq rfl
  | disco _ _ _ n => exact (Fewer.of_eq n.frame.2.2)
  | multi _ _ _ n _ => exact n.fewer
  | uni _ _ _ n _ => exact n.fewer

theorem InQs.fewer {env : Env} {m : Msg} {src : Addr} {qs : List Question} {did : Bool} {c c' : Core} {l l' : Lists}
    (n : InQs env m src qs did c l c' l') : Fewer c c' := by
  induction n with
  | nil => exact .of_eq rfl
  | cons _ h _ ih => exact h.fewer.trans ih

theorem RepliesTo.keep {m : Msg} {src : Addr} {c c' : Core} {u : Unicast} (h : RepliesTo m src c u) (hf : Fewer c c')
    (hc : c'.cls = c.cls) {x : Rec} (hx : c'.recs u.r = some x) : RepliesTo m src c' u := by
  obtain ⟨q, mq, y, hy, ha⟩ := h.asked
  rw [hf _ _ hx] at hy
  cases hy
  exact { h with asked := ⟨q, mq, x, hx, by rw [hc]; exact ha⟩ }

theorem fixed_cls {c c' : Core} (h : c'.fixed = c.fixed) : c'.cls = c.cls := congrArg Prod.fst h

theorem InQ.replies {env : Env} {m : Msg} {src : Addr} {q : Question} {did did' : Bool} {c c' : Core} {l l' : Lists}
    (n : InQ env m src q did c l did' c' l') (mq : q ∈ m.qd) :
    ∀ u ∈ c'.uanswers, u ∈ c.uanswers ∨ RepliesTo m src c' u := by
  cases n with
  | none _ => exact fun u h => .inl h
  | disco _ _ _ n => exact fun u h => .inl (n.slow.uans u h)
  | multi _ _ _ n _ => exact fun u h => .inl (n.slow.uans u h)
  | @uni r rs t hc hq hm n hp =>
    intro u hu
    rcases List.mem_cons.mp hu with rfl | hu
    · refine .inr ⟨rfl, rfl, hp.2, q, mq, ?_⟩
      have hr : r ∈ c.matching q.name q.type := by rw [hm]; simp
      obtain ⟨x, hx, h1, h2⟩ := isRec_name (List.mem_filter.mp hr).2
      refine ⟨x, ?_, ?_, h1, h2⟩
      · exact (congrFun (n.recs.2 hp.1).1 r).trans hx
      · exact hc.trans (fixed_cls n.fixed).symm
    · exact .inl (n.slow.uans u hu)

theorem InQs.replies {env : Env} {m : Msg} {src : Addr} {qs : List Question} {did : Bool} {c c' : Core} {l l' : Lists}
    (n : InQs env m src qs did c l c' l') (hq : ∀ q ∈ qs, q ∈ m.qd) (i : DInv c l) :
    ∀ u ∈ c'.uanswers, u ∈ c.uanswers ∨ RepliesTo m src c' u := by
  induction n with
  | nil => exact fun u h => .inl h
  | @cons q qs did did' c c1 c' l l1 l' _ h n ih =>
    intro u hu
    have i1 := h.inv i
    have hx := (n.inv i1).rinv.uans u hu
    obtain ⟨x, hx⟩ := Option.isSome_iff_exists.mp hx
    rcases ih (fun q m => hq q (by simp [m])) i1 u hu with h1 | h1
    · rcases h.replies (hq _ (by simp)) u h1 with h2 | h2
      · exact .inl h2
      · exact .inr (h2.keep n.fewer (fixed_cls n.fixed) hx)
    · exact .inr h1

/-- No record a question is about is being probed without data. -/
def NoBare (c : Core) (qs : List Question) : Prop := ∀ q ∈ qs, ∀ r x, c.recs r = some x → q.about c.cls x.rr →
  ¬ (x.unique ≠ 0 ∧ x.unique < 5 ∧ x.modified = false)

theorem NoBare.head {c : Core} {q : Question} {qs : List Question} (h : NoBare c (q :: qs)) : NoBare c [q] :=
  fun q' m => h q' (by rw [List.mem_singleton.mp m]; simp)

theorem NoBare.tail {c : Core} {q : Question} {qs : List Question} (h : NoBare c (q :: qs)) : NoBare c qs :=
  fun q' m => h q' (by simp [m])

theorem SendL.uanswers {rs : List Nat} {c c' : Core} {l l' : Lists} (n : SendL rs c l c' l') : c'.uanswers = c.uanswers := by
  induction n with
  | done h => rfl
  | send h hx n ih => exact ih.trans (sendSt_uanswers _ _ _ _)

theorem AnsL.calm {env : Env} {src : Addr} {q : Question} {an : List Resource} {rs : List Nat} {s t : ISt}
    (n : AnsL env src q an rs s t)
    (hb : ∀ r ∈ rs, ∀ x, s.c.recs r = some x → ¬ (x.unique ≠ 0 ∧ x.unique < 5 ∧ x.modified = false)) : t.conf = s.conf := by
  induction n with
  | done h => rfl
  | quiet h hx hu hl hf n ih => exact absurd hu (hb _ (by simp) _ hx)
  | conflict h hx hu hl ha n ih => exact absurd hu (hb _ (by simp) _ hx)
  | known _ _ _ _ _ _ ih => exact ih fun r m x hx => hb r (by simp [m]) x hx
  | @send r rs s t x evs _ _ _ _ _ _ ih =>
    refine ih fun r' m x' hx => hb r' (by simp [m]) x' ?_
    rw [← hx]
    exact (congrFun (sendSt_recs (s.c.heard evs) s.l r x) r').symm

theorem mem_about {c : Core} {q : Question} {r : Nat} (hc : q.cls = c.cls) (h : r ∈ c.matching q.name q.type) :
    ∃ x, c.recs r = some x ∧ q.about c.cls x.rr := by
  obtain ⟨x, hx, h1, h2⟩ := isRec_name (List.mem_filter.mp h).2
  exact ⟨x, hx, hc, h1, h2⟩

/-- Without conflicts records and waiting replies stay, and at most one reply is added. -/
theorem InQ.calm {env : Env} {m : Msg} {src : Addr} {q : Question} {did did' : Bool} {c c' : Core} {l l' : Lists}
    (n : InQ env m src q did c l did' c' l') (hb : NoBare c [q]) :
    c'.recs = c.recs ∧ ∃ us, c'.uanswers = us ++ c.uanswers ∧ us.length ≤ 1 := by
  have key : ∀ {t : ISt}, q.cls = c.cls → AnsL env src q m.an (c.matching q.name q.type) ⟨c, l, did, false⟩ t →
      t.conf = false := fun hc n => n.calm fun r hr x hx => by
    obtain ⟨y, hy, ha⟩ := mem_about hc hr
    change c.recs r = some x at hx
    rw [hx] at hy
    cases hy
    exact hb q (by simp) r x hx ha
  cases n with
  | none _ => exact ⟨rfl, [], rfl, by simp⟩
  | disco _ _ _ n => exact ⟨n.frame.2.2, [], n.uanswers, by simp⟩
  | multi hc _ _ n _ =>
    have := n.recs.2 (key hc n)
    exact ⟨this.1, [], this.2, by simp⟩
  | uni hc _ _ n _ =>
    have := n.recs.2 (key hc n)
    exact ⟨this.1, [_], by rw [this.2]; rfl, by simp⟩

theorem NoBare.congr {c c' : Core} {qs : List Question} (h : NoBare c qs) (e : c'.recs = c.recs) (e' : c'.cls = c.cls) :
    NoBare c' qs := by
  intro q mq r x hx ha
  rw [e] at hx
  rw [e'] at ha
  exact h q mq r x hx ha

theorem InQs.calm {env : Env} {m : Msg} {src : Addr} {qs : List Question} {did : Bool} {c c' : Core} {l l' : Lists}
    (n : InQs env m src qs did c l c' l') (hb : NoBare c qs) :
    c'.recs = c.recs ∧ ∃ us, c'.uanswers = us ++ c.uanswers ∧ us.length ≤ qs.length := by
  induction n with
  | nil => exact ⟨rfl, [], rfl, by simp⟩
  | cons _ h n ih =>
    obtain ⟨e1, us1, e2, h2⟩ := h.calm hb.head
    obtain ⟨e3, us3, e4, h4⟩ := ih (hb.tail.congr e1 (fixed_cls h.fixed))
    refine ⟨e3.trans e1, us3 ++ us1, by rw [e4, e2, List.append_assoc], ?_⟩
    rw [List.length_append, List.length_cons]
    omega

/-- A question about a record is replied to. -/
theorem InQ.reply {env : Env} {m : Msg} {src : Addr} {q : Question} {did did' : Bool} {c c' : Core} {l l' : Lists}
    (n : InQ env m src q did c l did' c' l') (hb : NoBare c [q]) (i : RInv c l) (hq : q.name ≠ discoName)
    (hp : src.port ≠ 5353) {r : Nat} {x : Rec} (hx : c.recs r = some x) (ha : q.about c.cls x.rr) :
    ∃ r' x', ⟨m.id, src, r'⟩ ∈ c'.uanswers ∧ c.recs r' = some x' ∧ q.about c.cls x'.rr := by
  have hm : r ∈ c.matching q.name q.type := (mem_matching i hx).mpr ha.2
  cases n with
  | none h =>
    rcases h with h | h
    · exact absurd ha.1 h
    · rw [h] at hm
      cases hm
  | disco _ h => exact absurd h hq
  | multi hc _ _ n h =>
    have := n.calm fun r hr x hx => by
      obtain ⟨y, hy, ha⟩ := mem_about hc hr
      change c.recs r = some x at hx
      rw [hx] at hy
      cases hy
      exact hb q (by simp) r x hx ha
    rcases h with h | h
    · rw [this] at h
      cases h
    · exact absurd h hp
  | @uni r' _ _ hc _ hm n h =>
    obtain ⟨x', hx', ha'⟩ := mem_about (r := r') hc (by rw [hm]; simp)
    exact ⟨r', x', by simp, hx', ha'⟩

theorem InQs.reply {env : Env} {m : Msg} {src : Addr} {qs : List Question} {did : Bool} {c c' : Core} {l l' : Lists}
    (n : InQs env m src qs did c l c' l') (hb : NoBare c qs) {q : Question} (mq : q ∈ qs) (hq : q.name ≠ discoName)
    (hp : src.port ≠ 5353) {r : Nat} {x : Rec} (hx : c.recs r = some x) (ha : q.about c.cls x.rr) :
    ∃ r' x', ⟨m.id, src, r'⟩ ∈ c'.uanswers ∧ c.recs r' = some x' ∧ q.about c.cls x'.rr := by
  induction n with
  | nil => cases mq
  | cons i h n ih =>
    have hb1 := hb.head
    obtain ⟨e1, us1, e2, h2⟩ := h.calm hb1
    have hb2 := hb.tail.congr e1 (fixed_cls h.fixed)
    obtain ⟨_, us3, e4, _⟩ := n.calm hb2
    rcases List.mem_cons.mp mq with rfl | mq
    · obtain ⟨r', x', m1, h1⟩ := h.reply hb1 i.rinv hq hp hx ha
      exact ⟨r', x', by rw [e4]; simp [m1], h1⟩
    · have := ih hb2 mq (by rw [e1]; exact hx) (by rw [fixed_cls h.fixed]; exact ha)
      rw [e1, fixed_cls h.fixed] at this
      exact this

/-! ### Records keep their names -/

/-- The record has this name and type, if it is still there. -/
def Named (n : Bytes) (t : Nat) (v : View) : Prop := ∀ x, v.x = some x → x.rr.name = n ∧ x.rr.type = t

theorem RStep.named {n : Bytes} {t : Nat} {u v : View} {ls : List Lab} (h : RStep u ls v) (hl : .new ∉ ls) (q : Named n t u) :
    Named n t v := by
  have keep : ∀ {x x' : Rec} {p p' : Option W}, Named n t ⟨some x, p⟩ → x'.rr.name = x.rr.name → x'.rr.type = x.rr.type →
      Named n t ⟨some x', p'⟩ := by
    intro x x' p p' q h1 h2 y hy
    cases hy
    obtain ⟨h3, h4⟩ := q x rfl
    exact ⟨h1.trans h3, h2.trans h4⟩
  have gone : ∀ {p : Option W}, Named n t ⟨none, p⟩ := fun x hx => by cases hx
  cases h with
  | touch h _ => exact keep q (by rw [h.rr]) (by rw [h.rr])
  | skip _ => exact keep q rfl rfl
  | shared _ _ => simp at hl
  | unique _ _ => simp at hl
  | edit _ h _ => exact keep q h.name h.type
  | publish _ h _ => exact keep q h.name h.type
  | queue _ _ _ => exact keep q rfl rfl
  | bye _ => exact keep q rfl rfl
  | drop => exact gone
  | sent _ _ h => exact keep q (by rw [h.rr]) (by rw [h.rr])
  | sentBye _ _ => exact gone
  | announce _ _ hr _ _ => exact keep q (by rw [hr]) (by rw [hr])
  | announceLast _ _ hr _ _ => exact keep q (by rw [hr]) (by rw [hr])
  | verify _ hr _ _ => exact keep q (by rw [hr]) (by rw [hr])
  | propose _ hr _ _ => exact keep q (by rw [hr]) (by rw [hr])
  | unicast h => exact keep q (by rw [h.rr]) (by rw [h.rr])
  | extra => exact keep q rfl rfl

theorem RSteps.named {n : Bytes} {t : Nat} {u v : View} {ls : List Lab} (h : RSteps u ls v) (hl : .new ∉ ls) (q : Named n t u) :
    Named n t v := by
  induction h with
  | refl => exact q
  | step h _ ih =>
    rw [List.mem_append, not_or] at hl
    exact ih hl.2 (h.named hl.1 q)

theorem InMsg.replies {env : Env} {now : TV} {m : Msg} {src : Addr} {c c' : Core} {l l' : Lists} {ret : Nat}
    (n : InMsg env now m src c l ret c' l') (ha : ∀ a ∈ m.an, a.WF) (i : DInv c l) :
    ∀ u ∈ c'.uanswers, u ∈ c.uanswers ∨ RepliesTo m src c' u := by
  cases n with
  | shutdown => exact fun u h => .inl h
  | own _ hl _ => exact fun u h => .inl (Slow.uans (Slow.locals hl) u h)
  | query _ _ hl _ n =>
    intro u hu
    rcases n.replies (fun _ m => m) ⟨hl.cinv (i.atNow now).cinv, hl.rinv (i.atNow now).rinv⟩ u hu with h | h
    · exact .inl (Slow.uans (Slow.locals hl) u h)
    · exact .inr h
  | response _ _ hl _ n => exact fun u h => .inl ((Slow.locals hl).uans u ((n.slow ha).uans u h))

theorem Did.replies {env : Env} {o : Op} {c c' : Core} {l l' : Lists} {a : OpOut} (n : Did env o c l a c' l') (i : DInv c l) :
    ∀ u ∈ c'.uanswers, u ∈ c.uanswers ∨ ∃ now m src, o = .recv now m src ∧ RepliesTo m src c' u := by
  intro u hu
  by_cases ho : ∃ now m src, o = .recv now m src
  · obtain ⟨now, m, src, rfl⟩ := ho
    cases n with
    | recv wf n =>
      rcases n.replies wf i u hu with h | h
      · exact .inl h
      · exact .inr ⟨_, _, _, rfl, h⟩
  · rcases n.uans u hu with h | ⟨now, m, src, rfl, _⟩
    · exact .inl h
    · exact absurd ⟨_, _, _, rfl⟩ ho

theorem Did.named {env : Env} {o : Op} {c c' : Core} {l l' : Lists} {a : OpOut} (n : Did env o c l a c' l') (i : DInv c l)
    (hu : ∀ u ∈ c.uanswers, u.to.port ≠ 5353) {r : Nat} {x x' : Rec} (hx : c.recs r = some x) (hx' : c'.recs r = some x') :
    x'.rr.name = x.rr.name ∧ x'.rr.type = x.rr.type := by
  obtain ⟨ls, hs, _, hm⟩ := (n.run i hu).steps r
  have hn : Lab.new ∉ ls := fun m => by
    have := (Op.may_new (hm _ m)).1
    have := i.rinv.bound r (by rw [hx]; rfl)
    omega
  refine hs.named hn (fun y hy => ?_) x' hx'
  change c.recs r = some y at hy
  rw [hx] at hy
  cases hy
  exact ⟨rfl, rfl⟩

/-- Every waiting reply is to a question that was received. -/
theorem Hist.replies {env : Env} {h : List Call} {d : D Ptrs} (n : Hist env h d) :
    ∀ u ∈ d.c.uanswers, ∃ now m src a, (Op.recv now m src, a) ∈ h ∧ RepliesTo m src d.c u := by
  refine n.induct (P := fun h c _ => ∀ u ∈ c.uanswers, ∃ now m src a, (Op.recv now m src, a) ∈ h ∧ RepliesTo m src c u)
    (fun _ _ _ u m => by cases m) ?_
  intro h c l o a c' l' p i hu hso hd i' u mu
  obtain ⟨x', hx'⟩ := Option.isSome_iff_exists.mp (i'.rinv.uans u mu)
  have hf := hd.fixed
  rcases hd.replies i u mu with m | ⟨now, m, src, rfl, k⟩
  · obtain ⟨now, m, src, b, mh, k⟩ := p u m
    refine ⟨now, m, src, b, by simp [mh], { k with asked := ?_ }⟩
    obtain ⟨q, mq, x, hx, ha⟩ := k.asked
    obtain ⟨h1, h2⟩ := hd.named i hu hx hx'
    refine ⟨q, mq, x', hx', ?_, by rw [h1]; exact ha.2.1, ?_⟩
    · rw [show c'.cls = c.cls from congrArg Prod.fst hf]
      exact ha.1
    · have := ha.2.2
      unfold typeFits at this ⊢
      rw [h2]
      exact this
  · exact ⟨now, m, src, a, by simp, k⟩

/-- The address family set last. -/
def familyOf (h : List Call) : Family := h.foldl (fun f k => k.1.family f) .inet

theorem Hist.family {env : Env} {h : List Call} {d : D Ptrs} (n : Hist env h d) : d.c.family = familyOf h := by
  refine n.induct (P := fun h c _ => c.family = familyOf h) (fun _ _ _ => rfl) ?_
  intro h c l o a c' l' p i hu hso hd i'
  have := congrArg (fun p => p.2.2) hd.fixed
  unfold familyOf
  rw [List.foldl_append]
  show c'.family = o.family (familyOf h)
  rw [← p]
  exact this

/-- Waiting replies are sent one after the other. -/
theorem Calls.replied {env : Env} {d d' : D Ptrs} {h : List Call} (n : Calls env d h d') (hr : Reach env d)
    (hs : ∀ k ∈ h, k.1.isSend) : d'.c.uanswers = d.c.uanswers.drop h.length ∧
      ∀ i u, d.c.uanswers[i]? = some u → i < h.length → ∃ now ret p, h[i]? = some (.send now, .sent ret p u.to) ∧
        p.id = u.id ∧ (.an, u.r) ∈ p.tags := by
  refine n.induct (P := fun h c _ => c.uanswers = d.c.uanswers.drop h.length ∧
      ∀ i u, d.c.uanswers[i]? = some u → i < h.length → ∃ now ret p, h[i]? = some (.send now, .sent ret p u.to) ∧
        p.id = u.id ∧ (.an, u.r) ∈ p.tags) hr ⟨rfl, fun i u _ hi => by simp at hi⟩ ?_
  rintro h1 c l o a c' l' ⟨h2, e⟩ ⟨p1, p2⟩ i hu hso hd i'
  have ho := hs (o, a) (by rw [e]; simp)
  cases hd with
  | @send now ret m to _ _ _ _ n =>
    have hg := n.goes
    have hpre : ∀ i u, d.c.uanswers[i]? = some u → i < h1.length → ∃ now' ret' p,
        (h1 ++ [(Op.send now, OpOut.sent ret m to)])[i]? = some (.send now', .sent ret' p u.to) ∧
          p.id = u.id ∧ (.an, u.r) ∈ p.tags := by
      intro i u hi hl
      rw [List.getElem?_append_left hl]
      exact p2 i u hi hl
    rcases hg with ⟨h3, h4, _⟩ | ⟨u, us, h3, h4, h5, h6, xs, h7⟩
    · change c.uanswers = [] at h3
      refine ⟨?_, fun i u hi hl => ?_⟩
      · rw [h4, List.length_append, ← List.drop_drop, ← p1, h3]
        rfl
      · have : i < h1.length := by
          rw [p1, List.drop_eq_nil_iff] at h3
          have := (List.getElem?_eq_some_iff.mp hi).1
          omega
        exact hpre i u hi this
    · change c.uanswers = u :: us at h3
      refine ⟨?_, fun i v hi hl => ?_⟩
      · rw [h4, List.length_append, ← List.drop_drop, ← p1, h3]
        rfl
      · rcases Nat.lt_or_ge i h1.length with hlt | hge
        · exact hpre i v hi hlt
        · have : i = h1.length := by
            rw [List.length_append] at hl
            simp at hl
            omega
          subst this
          have hv : u = v := by
            have := congrArg (·[0]?) p1
            simp only [h3, List.getElem?_drop, Nat.add_zero, hi] at this
            simpa using this
          subst hv
          refine ⟨now, ret, m, by simp [h5], h6, by rw [h7]; simp⟩
  | _ => exact absurd ho id

end Mdns
