import Verif.Lemmas.Questions

/-!
# What `mdnsd_in` does
-/

namespace Mdns

open M

/-- More events. -/
def Core.heard (c : Core) (evs : List Event) : Core := { c with log := c.log ++ evs }

/-- Events that do not concern queries. -/
def Event.quiet : Event → Prop
  | .received _ => True
  | .conflict _ _ _ => True
  | _ => False

theorem CInv.heard1 {c : Core} (h : CInv c) {e : Event} (he : e.quiet) : CInv (c.heard [e]) := by
  have hcb : ∀ host type, callback (c.log ++ [e]) host type = callback c.log host type := by
    intro host type
    cases e with
    | received r => exact callback_append_received _ _ _ _
    | conflict r n t => exact callback_append_conflict _ _ _ _ _ _
    | answer => exact absurd he id
    | registered => exact absurd he id
    | unregistered => exact absurd he id
  refine { h with tcb := ?_, tlog := ?_ }
  · intro host type cb
    show callback (c.log ++ [e]) host type = some cb ↔ _
    rw [hcb]
    exact h.tcb host type cb
  · refine h.tlog.append ?_
    rintro q cb rr rfl
    exact absurd he id

theorem heard_heard (c : Core) (a b : List Event) : (c.heard a).heard b = c.heard (a ++ b) := by
  unfold Core.heard
  simp

theorem heard_nil (c : Core) : c.heard [] = c := by
  unfold Core.heard
  simp

theorem CInv.heard {c : Core} : ∀ {evs : List Event}, CInv c → (∀ e ∈ evs, e.quiet) → CInv (c.heard evs)
  | [], h, _ => by rw [heard_nil]; exact h
  | e :: evs, h, he => by
    have := CInv.heard (h.heard1 (he e (by simp))) (evs := evs) fun e' m => he e' (by simp [m])
    rw [heard_heard] at this
    exact this

/-- Only the list of own addresses changed, to a list the system reported. -/
def Locals (env : Env) (c c' : Core) : Prop :=
  ∃ a b n, c' = { c with locals := a, refreshed := b, nifs := n } ∧
    ((a = c.locals ∧ b = c.refreshed) ∨ ∃ k, env.ifaddrs k = some a)

theorem Locals.refl {env : Env} (c : Core) : Locals env c c := ⟨_, _, _, rfl, .inl ⟨rfl, rfl⟩⟩
theorem Locals.trans {env : Env} {a b c : Core} (h : Locals env a b) (h' : Locals env b c) : Locals env a c := by
  obtain ⟨_, _, _, rfl, h⟩ := h
  obtain ⟨_, _, _, rfl, h'⟩ := h'
  refine ⟨_, _, _, rfl, ?_⟩
  rcases h' with h' | h'
  · rcases h with h | h
    · exact .inl ⟨h'.1.trans h.1, h'.2.trans h.2⟩
    · exact .inr (h'.1 ▸ h)
  · exact .inr h'
theorem Locals.cinv {env : Env} {c c' : Core} (h : Locals env c c') (i : CInv c) : CInv c' := by
  obtain ⟨_, _, _, rfl, _⟩ := h
  exact i.congr rfl rfl rfl rfl rfl rfl
theorem Locals.rinv {env : Env} {c c' : Core} {l : Lists} (h : Locals env c c') (i : RInv c l) : RInv c' l := by
  obtain ⟨_, _, _, rfl, _⟩ := h
  exact i.congr rfl rfl rfl
theorem Locals.recs {env : Env} {c c' : Core} (h : Locals env c c') : c'.recs = c.recs := by
  obtain ⟨_, _, _, rfl, _⟩ := h
  rfl

theorem refreshLocals_locals (env : Env) (force : Bool) (c : Core) : Locals env c (refreshLocals env force c) := by
  unfold refreshLocals
  split
  · exact .refl c
  · split
    · exact ⟨_, _, _, rfl, .inl ⟨rfl, rfl⟩⟩
    · rename_i l hl
      exact ⟨_, _, _, rfl, .inr ⟨_, hl⟩⟩

/-- An address the daemon takes to be foreign: not its own, not in the list it has, and not
reported by the system. -/
def Foreign (env : Env) (c : Core) (src : Addr) : Prop :=
  (∀ a, src.ip = .v4 a → a ≠ c.addr) ∧ (∀ a, src.ip = .v6 a → a ≠ c.addr6) ∧ src.ip ∉ c.locals ∧
    ∀ n l, env.ifaddrs n = some l → src.ip ∉ l

theorem Foreign.refresh {env : Env} {c : Core} {src : Addr} (h : Foreign env c src) (force : Bool) :
    Foreign env (refreshLocals env force c) src := by
  obtain ⟨h1, h2, h3, h4⟩ := h
  unfold refreshLocals
  split
  · exact ⟨h1, h2, h3, h4⟩
  · split
    · exact ⟨h1, h2, h3, h4⟩
    · rename_i l hl
      exact ⟨h1, h2, h4 _ l hl, h4⟩

/-- The source address is the daemon's own. -/
def Core.ownAddr (c : Core) (src : Addr) : Bool :=
  match src.ip with
  | .v4 a => a == c.addr
  | .v6 a => a == c.addr6

theorem isLocal_eq {Q : Type} [QOps Q] (env : Env) (src : Addr) (c : Core) (q : Q) :
    isLocal env src ⟨c, q⟩ = .ok (
      if c.ownAddr src then (true, ⟨c, q⟩)
      else ((refreshLocals env false c).locals.contains src.ip, ⟨refreshLocals env false c, q⟩)) := by
  show (if c.ownAddr src = true then (pure true : M Q Bool) else _) ⟨c, q⟩ = _
  split
  · rfl
  · rfl

theorem isLocal_ok (env : Env) (src : Addr) (c : Core) (l : Lists) :
    ∃ b c', isLocal env src ⟨c, l⟩ = .ok (b, ⟨c', l⟩) ∧ Locals env c c' ∧
      (Foreign env c src → b = false ∧ Foreign env c' src) := by
  rw [isLocal_eq]
  split
  · rename_i ho
    refine ⟨true, c, rfl, .refl c, fun h => ?_⟩
    obtain ⟨h1, h2, _⟩ := h
    unfold Core.ownAddr at ho
    split at ho
    · rename_i a e
      exact absurd (by simpa using ho) (h1 a e)
    · rename_i a e
      exact absurd (by simpa using ho) (h2 a e)
  · refine ⟨_, _, rfl, refreshLocals_locals env false c, fun h => ?_⟩
    have := h.refresh (env := env) false
    exact ⟨by simpa using this.2.2.1, this⟩

/-- The conflict check of a record being probed. -/
theorem probeConflict_ok {env : Env} {src : Addr} {q : Question} {r : Nat} {x : Rec} :
    ∀ (an : List Resource) (did : Bool) {c : Core} {l : Lists}, RInv c l → c.recs r = some x →
      x.unique ≠ 0 ∧ x.unique < 5 →
      ∃ did' c', Locals env c c' ∧
        ((probeConflict env src q r an did ⟨c, l⟩ = .ok ((did', false), ⟨c', l⟩) ∧
            (Foreign env c src → (∀ a ∈ an, answers q a = true → aMatch a x.rr = true) ∧ Foreign env c' src)) ∨
          ((∃ a ∈ an, answers q a = true ∧ aMatch a x.rr = false) ∧
            probeConflict env src q r an did ⟨c, l⟩ = .ok ((true, true),
              ⟨(c'.heard [.conflict r x.rr.name x.rr.type]).dropRec r x, (l.unprobe r).dead r⟩)))
  | [], did, c, l, h, hx, hu => ⟨did, c, .refl c, .inl ⟨rfl, fun hf => ⟨(fun _ m => by cases m), hf⟩⟩⟩
  | a :: an, did, c, l, h, hx, hu => by
    unfold probeConflict
    by_cases ha : answers q a = true
    · rw [if_pos ha, M.bind_ok (getRec_ok hx)]
      by_cases hm : aMatch a x.rr = true
      · rw [if_pos hm]
        obtain ⟨did', c', hl, hr⟩ := probeConflict_ok (env := env) (src := src) (q := q) (r := r) (x := x) an did h hx hu
        refine ⟨did', c', hl, ?_⟩
        rcases hr with ⟨e, hf⟩ | ⟨⟨b, mb, hb⟩, e⟩
        · refine .inl ⟨e, fun f => ⟨?_, (hf f).2⟩⟩
          intro b mb hb
          rcases List.mem_cons.mp mb with rfl | mb
          · exact hm
          · exact (hf f).1 b mb hb
        · exact .inr ⟨⟨b, by simp [mb], hb⟩, e⟩
      · rw [if_neg hm]
        have e1 : ∃ c1 : Core, (do
            if !did then modC (refreshLocals env true)
            if ← isLocal env src then probeConflict env src q r an true
            else do
              conflict r
              pure (true, true) : M Lists (Bool × Bool)) ⟨c, l⟩ = (do
            if ← isLocal env src then probeConflict env src q r an true
            else do
              conflict r
              pure (true, true) : M Lists (Bool × Bool)) ⟨c1, l⟩ ∧ Locals env c c1 ∧ (Foreign env c src → Foreign env c1 src) := by
          cases did with
          | true => exact ⟨c, rfl, .refl c, id⟩
          | false => exact ⟨refreshLocals env true c, rfl, refreshLocals_locals env true c, fun hf => hf.refresh true⟩
        obtain ⟨c1, e1, l1, f1⟩ := e1
        rw [e1]
        obtain ⟨b, c2, e2, l2, f2⟩ := isLocal_ok env src c1 l
        rw [M.bind_ok e2]
        have hx2 : c2.recs r = some x := by rw [l2.recs, l1.recs]; exact hx
        have h2 : RInv c2 l := l2.rinv (l1.rinv h)
        cases b with
        | true =>
          rw [if_pos rfl]
          obtain ⟨did', c', hl, hr⟩ :=
            probeConflict_ok (env := env) (src := src) (q := q) (r := r) (x := x) an true h2 hx2 hu
          refine ⟨did', c', (l1.trans l2).trans hl, ?_⟩
          rcases hr with ⟨e, hf⟩ | ⟨⟨b, mb, hb⟩, e⟩
          · exact .inl ⟨e, fun f => absurd (f2 (f1 f)).1 (by simp)⟩
          · exact .inr ⟨⟨b, by simp [mb], hb⟩, e⟩
        | false =>
          rw [if_neg (by simp)]
          refine ⟨true, c2, l1.trans l2, .inr ⟨⟨a, by simp, ha, by simpa using hm⟩, ?_⟩⟩
          have h3 : RInv (c2.heard [.conflict r x.rr.name x.rr.type]) l := h2.congr rfl rfl rfl
          have e3 : done r ⟨c2.heard [.conflict r x.rr.name x.rr.type], l⟩ = _ := done_ok h3 hx2
          unfold doneSt at e3
          rw [if_pos hu] at e3
          have e4 : conflict r ⟨c2, l⟩ = .ok ((),
              ⟨(c2.heard [.conflict r x.rr.name x.rr.type]).dropRec r x, (l.unprobe r).dead r⟩) := by
            unfold conflict
            rw [M.bind_ok (getRec_ok hx2)]
            obtain ⟨cf, hcf⟩ := Option.isSome_iff_exists.mp (h2.conf r x hx2 hu.1)
            rw [hcf]
            dsimp only
            rw [M.bind_ok modC_ok]
            exact e3
          rw [M.bind_ok e4]
          rfl
    · rw [if_neg ha]
      obtain ⟨did', c', hl, hr⟩ := probeConflict_ok (env := env) (src := src) (q := q) (r := r) (x := x) an did h hx hu
      refine ⟨did', c', hl, ?_⟩
      rcases hr with ⟨e, hf⟩ | ⟨⟨b, mb, hb⟩, e⟩
      · refine .inl ⟨e, fun f => ⟨?_, (hf f).2⟩⟩
        intro b mb hb
        rcases List.mem_cons.mp mb with rfl | mb
        · exact absurd hb ha
        · exact (hf f).1 b mb hb
      · exact .inr ⟨⟨b, by simp [mb], hb⟩, e⟩

/-- The known-answer check. -/
theorem knownAnswer_ok {q : Question} {r : Nat} {x : Rec} {l : Lists} : ∀ (an : List Resource) {c : Core},
    c.recs r = some x → ∃ evs, (∀ e ∈ evs, ∃ a ∈ an, e = Event.received a) ∧
      knownAnswer q r an ⟨c, l⟩ = .ok (an.any fun a => answers q a && aMatch a x.rr, ⟨c.heard evs, l⟩)
  | [], c, _ => ⟨[], (fun _ m => by cases m), by rw [heard_nil]; rfl⟩
  | a :: an, c, hx => by
    unfold knownAnswer
    by_cases ha : answers q a = true
    · rw [if_pos ha, M.bind_ok modC_ok]
      have : ∃ ev1, (∀ e ∈ ev1, e = Event.received a) ∧
          (if c.recvCb = true then { c with log := c.log ++ [Event.received a] } else c) = c.heard ev1 := by
        split
        · exact ⟨[.received a], by simp, rfl⟩
        · exact ⟨[], by simp, (heard_nil c).symm⟩
      obtain ⟨ev1, h1, e1⟩ := this
      rw [e1]
      have hx1 : (c.heard ev1).recs r = some x := hx
      rw [M.bind_ok (getRec_ok hx1)]
      by_cases hm : aMatch a x.rr = true
      · rw [if_pos hm]
        refine ⟨ev1, fun e m => ⟨a, by simp, h1 e m⟩, ?_⟩
        simp only [List.any_cons, ha, hm, Bool.and_self, Bool.true_or]
        rfl
      · rw [if_neg hm]
        obtain ⟨ev2, h2, e2⟩ := knownAnswer_ok (q := q) (l := l) an hx1
        refine ⟨ev1 ++ ev2, ?_, ?_⟩
        · intro e m
          rcases List.mem_append.mp m with m | m
          · exact ⟨a, by simp, h1 e m⟩
          · obtain ⟨b, mb, hb⟩ := h2 e m
            exact ⟨b, by simp [mb], hb⟩
        · rw [e2, heard_heard]
          have hm : aMatch a x.rr = false := by simpa using hm
          simp only [List.any_cons, hm, Bool.and_false, Bool.false_or]
    · rw [if_neg ha]
      obtain ⟨ev2, h2, e2⟩ := knownAnswer_ok (q := q) (l := l) an hx
      refine ⟨ev2, ?_, ?_⟩
      · intro e m
        obtain ⟨b, mb, hb⟩ := h2 e m
        exact ⟨b, by simp [mb], hb⟩
      · rw [e2]
        have ha : answers q a = false := by simpa using ha
        simp only [List.any_cons, ha, Bool.false_and, Bool.false_or]

/-! ### Walking a hash chain -/

/-- Does a record match a name and type? -/
def Core.isRec (c : Core) (host : Bytes) (type : Nat) (r : Nat) : Bool :=
  match c.recs r with
  | some x => x.rr.is host type
  | none => false

theorem rScan_ok {c : Core} {l : Lists} {host : Bytes} {type : Nat} : ∀ (rs : List Nat),
    (∀ r ∈ rs, ∃ x, c.recs r = some x) →
    rScan host type rs ⟨c, l⟩ = .ok ((rs.filter (c.isRec host type)).head?, ⟨c, l⟩)
  | [], _ => rfl
  | r :: rs, h => by
    obtain ⟨x, hx⟩ := h r (by simp)
    have hi : c.isRec host type r = x.rr.is host type := by simp only [Core.isRec, hx]
    unfold rScan
    rw [M.bind_ok (getRec_ok hx), List.filter_cons, hi]
    split
    · rfl
    · exact rScan_ok rs fun r' m => h r' (by simp [m])

/-- The records matching a name and type. -/
def Core.matching (c : Core) (host : Bytes) (type : Nat) : List Nat :=
  (c.published (bucket host sprime)).filter (c.isRec host type)

theorem rFirst_ok {c : Core} {l : Lists} (h : RInv c l) (host : Bytes) (type : Nat) :
    rFirst host type ⟨c, l⟩ = .ok ((c.matching host type).head?, ⟨c, l⟩) := by
  unfold rFirst
  rw [M.bind_ok core_ok]
  exact rScan_ok _ (h.pubrec _)

theorem isRec_name {c : Core} {host : Bytes} {type r : Nat} (h : c.isRec host type r = true) :
    ∃ x, c.recs r = some x ∧ x.rr.name = host ∧ typeFits type x.rr := by
  unfold Core.isRec at h
  split at h
  · rename_i x hx
    rw [is_iff] at h
    exact ⟨x, hx, h⟩
  · cases h

/-- The next matching record. -/
theorem rNext_ok {c : Core} {l : Lists} (h : RInv c l) {host : Bytes} {type r : Nat} {pre suf : List Nat}
    (hp : c.published (bucket host sprime) = pre ++ r :: suf) (hr : c.isRec host type r = true) :
    rNext r host type ⟨c, l⟩ = .ok ((suf.filter (c.isRec host type)).head?, ⟨c, l⟩) := by
  obtain ⟨x, hx, hn, _⟩ := isRec_name hr
  have hnd := h.pnodup (bucket host sprime)
  rw [hp] at hnd
  unfold rNext rBehind
  have e1 : (do
      let x ← getRec r
      let c ← core
      pure (behind r (c.published (bucket x.rr.name sprime))) : M Lists (List Nat)) ⟨c, l⟩ = .ok (suf, ⟨c, l⟩) := by
    rw [M.bind_ok (getRec_ok hx), M.bind_ok core_ok, hn, hp, behind_split (split_nodup hnd).1]
    rfl
  rw [M.bind_ok e1]
  refine rScan_ok suf fun r' m => h.pubrec (bucket host sprime) r' ?_
  rw [hp]
  simp [m]

/-- State of the loop over the records that may answer. -/
structure ISt where
  c : Core
  l : Lists
  did : Bool
  conf : Bool

/-- The steps of the loop over the records that may answer a question. -/
inductive AnsL (env : Env) (src : Addr) (q : Question) (an : List Resource) : List Nat → ISt → ISt → Prop
  | done {s : ISt} (h : RInv s.c s.l) : AnsL env src q an [] s s
  /-- being probed, no conflict -/
  | quiet {r : Nat} {rs : List Nat} {s t : ISt} {x : Rec} {did : Bool} {c1 : Core} (h : RInv s.c s.l)
      (hx : s.c.recs r = some x) (hu : x.unique ≠ 0 ∧ x.unique < 5 ∧ x.modified = false) (hl : Locals env s.c c1)
      (hf : Foreign env s.c src → (∀ a ∈ an, answers q a = true → aMatch a x.rr = true) ∧ Foreign env c1 src)
      (n : AnsL env src q an rs { s with c := c1, did := did } t) : AnsL env src q an (r :: rs) s t
  /-- being probed, a conflict -/
  | conflict {r : Nat} {rs : List Nat} {s t : ISt} {x : Rec} {c1 : Core} (h : RInv s.c s.l)
      (hx : s.c.recs r = some x) (hu : x.unique ≠ 0 ∧ x.unique < 5 ∧ x.modified = false) (hl : Locals env s.c c1)
      (ha : ∃ a ∈ an, answers q a = true ∧ aMatch a x.rr = false)
      (n : AnsL env src q an rs
        ⟨(c1.heard [.conflict r x.rr.name x.rr.type]).dropRec r x, (s.l.unprobe r).dead r, true, true⟩ t) :
      AnsL env src q an (r :: rs) s t
  /-- the querier knows the record -/
  | known {r : Nat} {rs : List Nat} {s t : ISt} {x : Rec} {evs : List Event} (h : RInv s.c s.l)
      (hx : s.c.recs r = some x) (hu : ¬ (x.unique ≠ 0 ∧ x.unique < 5 ∧ ¬ x.modified = true))
      (he : ∀ e ∈ evs, ∃ a ∈ an, e = Event.received a)
      (hk : (an.any fun a => answers q a && aMatch a x.rr) = true)
      (n : AnsL env src q an rs { s with c := s.c.heard evs } t) : AnsL env src q an (r :: rs) s t
  /-- the record is sent -/
  | send {r : Nat} {rs : List Nat} {s t : ISt} {x : Rec} {evs : List Event} (h : RInv s.c s.l)
      (hx : s.c.recs r = some x) (hu : ¬ (x.unique ≠ 0 ∧ x.unique < 5 ∧ ¬ x.modified = true))
      (he : ∀ e ∈ evs, ∃ a ∈ an, e = Event.received a)
      (hk : (an.any fun a => answers q a && aMatch a x.rr) = false)
      (n : AnsL env src q an rs
        { s with c := (sendSt (s.c.heard evs) s.l r x).c, l := (sendSt (s.c.heard evs) s.l r x).q } t) :
      AnsL env src q an (r :: rs) s t

theorem AnsL.inv {env : Env} {src : Addr} {q : Question} {an : List Resource} {rs : List Nat} {s t : ISt}
    (n : AnsL env src q an rs s t) : RInv t.c t.l := by
  induction n with
  | done h => exact h
  | quiet _ _ _ _ _ _ ih => exact ih
  | conflict _ _ _ _ _ _ ih => exact ih
  | known _ _ _ _ _ _ ih => exact ih
  | send _ _ _ _ _ _ ih => exact ih

theorem sendSt_recfree (c : Core) (l : Lists) (r : Nat) (x : Rec) : (sendSt c l r x).c.recfree = c.recfree := by
  unfold sendSt
  split
  · rfl
  · split <;> rfl

theorem sendSt_recs (c : Core) (l : Lists) (r : Nat) (x : Rec) : (sendSt c l r x).c.recs = c.recs := by
  unfold sendSt
  split
  · rfl
  · split <;> rfl

theorem sendSt_published (c : Core) (l : Lists) (r : Nat) (x : Rec) :
    (sendSt c l r x).c.published = c.published := by
  unfold sendSt
  split
  · rfl
  · split <;> rfl

theorem sendSt_uanswers (c : Core) (l : Lists) (r : Nat) (x : Rec) :
    (sendSt c l r x).c.uanswers = c.uanswers := by
  unfold sendSt
  split
  · rfl
  · split <;> rfl

theorem quiet_received {an : List Resource} {evs : List Event} (he : ∀ e ∈ evs, ∃ a ∈ an, e = Event.received a) :
    ∀ e ∈ evs, e.quiet := by
  intro e m
  obtain ⟨a, _, rfl⟩ := he e m
  trivial

theorem AnsL.cinv {env : Env} {src : Addr} {q : Question} {an : List Resource} {rs : List Nat} {s t : ISt}
    (n : AnsL env src q an rs s t) (hc : CInv s.c) : CInv t.c := by
  induction n with
  | done h => exact hc
  | quiet _ _ _ hl _ _ ih => exact ih (hl.cinv hc)
  | conflict _ _ _ hl _ _ ih => exact ih (((hl.cinv hc).heard1 (e := .conflict _ _ _) trivial).recfree rfl)
  | known _ _ _ he _ _ ih => exact ih (hc.heard (quiet_received he))
  | send _ _ _ he _ _ ih => exact ih ((hc.heard (quiet_received he)).recfree (sendSt_recfree _ _ _ _))

/-- Without a conflict no record is changed. -/
theorem AnsL.recs {env : Env} {src : Addr} {q : Question} {an : List Resource} {rs : List Nat} {s t : ISt}
    (n : AnsL env src q an rs s t) : (s.conf = true → t.conf = true) ∧
      (t.conf = false → t.c.recs = s.c.recs ∧ t.c.uanswers = s.c.uanswers) := by
  induction n with
  | done h => exact ⟨id, fun _ => ⟨rfl, rfl⟩⟩
  | quiet _ _ _ hl _ _ ih =>
    obtain ⟨_, _, _, rfl, _⟩ := hl
    exact ih
  | conflict _ _ _ hl _ _ ih =>
    have := ih.1 rfl
    exact ⟨fun _ => this, fun h => absurd h (by simp [this])⟩
  | known _ _ _ _ _ _ ih => exact ih
  | send _ _ _ _ _ _ ih =>
    refine ⟨ih.1, fun h => ?_⟩
    obtain ⟨h1, h2⟩ := ih.2 h
    exact ⟨h1.trans (sendSt_recs _ _ _ _), h2.trans (sendSt_uanswers _ _ _ _)⟩

theorem isRec_congr {c c' : Core} (h : c'.recs = c.recs) : c'.isRec = c.isRec := by
  funext host type r
  unfold Core.isRec
  rw [h]

theorem mem_suffix_filter {p : Nat → Bool} {l : List Nat} {r : Nat} {rs pre suf : List Nat} (h : l = pre ++ suf)
    (hs : suf.filter p = r :: rs) : ∃ pre' suf', l = pre' ++ r :: suf' ∧ p r = true ∧ suf'.filter p = rs := by
  induction suf generalizing pre with
  | nil => cases hs
  | cons a suf ih =>
    rw [List.filter_cons] at hs
    split at hs
    · rename_i hp
      cases hs
      exact ⟨pre, suf, h, hp, rfl⟩
    · exact ih (pre := pre ++ [a]) (by simp [h]) hs

theorem answerLoop_ok {env : Env} {src : Addr} {q : Question} {an : List Resource} :
    ∀ (rs : List Nat) (fuel : Nat) (s : ISt), RInv s.c s.l →
      (∃ pre suf, s.c.published (bucket q.name sprime) = pre ++ suf ∧ suf.filter (s.c.isRec q.name q.type) = rs) →
      rs.length ≤ fuel →
      ∃ t, answerLoop env src q an fuel rs.head? s.did s.conf ⟨s.c, s.l⟩ = .ok ((t.did, t.conf), ⟨t.c, t.l⟩) ∧
        AnsL env src q an rs s t
  | [], fuel, s, h, _, _ => by
    refine ⟨s, ?_, .done h⟩
    unfold answerLoop
    rfl
  | r :: rs, fuel + 1, s, h, ⟨pre0, suf0, hp0, hs0⟩, hf => by
    have hf : rs.length ≤ fuel := by simpa using hf
    obtain ⟨pre, suf, hp, hr, hs⟩ := mem_suffix_filter hp0 hs0
    obtain ⟨x, hx, hn, ht⟩ := isRec_name hr
    have hnd := h.pnodup (bucket q.name sprime)
    rw [hp] at hnd
    obtain ⟨nd1, nd2⟩ := split_nodup hnd
    rw [List.head?_cons]
    unfold answerLoop
    rw [M.bind_ok (getRec_ok hx), M.bind_ok (rNext_ok h hp hr), hs]
    by_cases hu : x.unique ≠ 0 ∧ x.unique < 5 ∧ ¬ x.modified = true
    · rw [if_pos hu]
      obtain ⟨did', c1, hl, hr'⟩ :=
        probeConflict_ok (env := env) (src := src) (q := q) (r := r) (x := x) an s.did h hx ⟨hu.1, hu.2.1⟩
      have hu' : x.unique ≠ 0 ∧ x.unique < 5 ∧ x.modified = false := ⟨hu.1, hu.2.1, by simpa using hu.2.2⟩
      have hpl : c1.published = s.c.published := by obtain ⟨_, _, _, rfl, _⟩ := hl; rfl
      rcases hr' with ⟨e, hfr⟩ | ⟨ha, e⟩
      · rw [M.bind_ok e]
        obtain ⟨t, e', n⟩ := answerLoop_ok (env := env) (src := src) (q := q) (an := an) rs fuel
          { s with c := c1, did := did' } (hl.rinv h)
          ⟨pre ++ [r], suf, by rw [hpl]; simp [hp], by rw [isRec_congr hl.recs]; exact hs⟩ hf
        refine ⟨t, ?_, .quiet h hx hu' hl hfr n⟩
        simp only [Bool.or_false]
        exact e'
      · rw [M.bind_ok e]
        have h2 : RInv ((c1.heard [.conflict r x.rr.name x.rr.type]).dropRec r x) ((s.l.unprobe r).dead r) := by
          have h3 : RInv (c1.heard [.conflict r x.rr.name x.rr.type]) s.l := (hl.rinv h).congr rfl rfl rfl
          have hx3 : (c1.heard [.conflict r x.rr.name x.rr.type]).recs r = some x := by
            show c1.recs r = _
            rw [hl.recs]
            exact hx
          have := h3.doneSt hx3
          unfold doneSt at this
          rw [if_pos ⟨hu.1, hu.2.1⟩] at this
          exact this
        have hpub : ((c1.heard [.conflict r x.rr.name x.rr.type]).dropRec r x).published (bucket q.name sprime) =
            pre ++ suf := by
          unfold Core.dropRec
          simp only [Core.heard]
          rw [hn, upd_same, hpl, hp, erase_split nd1]
        have hfil : suf.filter (((c1.heard [.conflict r x.rr.name x.rr.type]).dropRec r x).isRec q.name q.type) = rs := by
          rw [← hs]
          refine List.filter_congr fun a ma => ?_
          have : a ≠ r := fun e => nd2 (e ▸ ma)
          unfold Core.isRec Core.dropRec
          simp only [Core.heard]
          rw [upd_other _ _ _ _ this, hl.recs]
        obtain ⟨t, e', n⟩ := answerLoop_ok (env := env) (src := src) (q := q) (an := an) rs fuel
          ⟨(c1.heard [.conflict r x.rr.name x.rr.type]).dropRec r x, (s.l.unprobe r).dead r, true, true⟩ h2
          ⟨pre, suf, hpub, hfil⟩ hf
        refine ⟨t, ?_, .conflict h hx hu' hl ha n⟩
        simp only [Bool.or_true]
        exact e'
    · rw [if_neg hu]
      obtain ⟨evs, he, e⟩ := knownAnswer_ok (q := q) (l := s.l) an hx
      rw [M.bind_ok e]
      cases hk : (an.any fun a => answers q a && aMatch a x.rr) with
      | true =>
        obtain ⟨t, e', n⟩ := answerLoop_ok (env := env) (src := src) (q := q) (an := an) rs fuel
          { s with c := s.c.heard evs } (h.congr rfl rfl rfl)
          ⟨pre ++ [r], suf, by show s.c.published _ = _; rw [hp]; simp, hs⟩ hf
        exact ⟨t, e', .known h hx hu he hk n⟩
      | false =>
        have h2 : RInv (s.c.heard evs) s.l := h.congr rfl rfl rfl
        have hx2 : (s.c.heard evs).recs r = some x := hx
        have e2 := rSend_ok h2 hx2
        obtain ⟨t, e', n⟩ := answerLoop_ok (env := env) (src := src) (q := q) (an := an) rs fuel
          { s with c := (sendSt (s.c.heard evs) s.l r x).c, l := (sendSt (s.c.heard evs) s.l r x).q } (h2.sendSt hx2)
          ⟨pre ++ [r], suf, by rw [sendSt_published]; show s.c.published _ = _; rw [hp]; simp,
            by rw [isRec_congr (sendSt_recs _ _ _ _)]; exact hs⟩ hf
        refine ⟨t, ?_, .send h hx hu he hk n⟩
        exact (M.bind_ok e2).trans e'

/-- The steps of the loop for service discovery: every matching record is sent. -/
inductive SendL : List Nat → Core → Lists → Core → Lists → Prop
  | done {c : Core} {l : Lists} (h : RInv c l) : SendL [] c l c l
  | send {r : Nat} {rs : List Nat} {c c' : Core} {l l' : Lists} {x : Rec} (h : RInv c l) (hx : c.recs r = some x)
      (n : SendL rs (sendSt c l r x).c (sendSt c l r x).q c' l') : SendL (r :: rs) c l c' l'

theorem SendL.inv {rs : List Nat} {c c' : Core} {l l' : Lists} (n : SendL rs c l c' l') : RInv c' l' := by
  induction n with
  | done h => exact h
  | send _ _ _ ih => exact ih

theorem SendL.recfree {rs : List Nat} {c c' : Core} {l l' : Lists} (n : SendL rs c l c' l') :
    c'.recfree = c.recfree := by
  induction n with
  | done h => rfl
  | send _ _ _ ih => exact ih.trans (sendSt_recfree _ _ _ _)

theorem SendL.recs {rs : List Nat} {c c' : Core} {l l' : Lists} (n : SendL rs c l c' l') :
    c'.recs = c.recs ∧ c'.published = c.published ∧ c'.uanswers = c.uanswers := by
  induction n with
  | done h => exact ⟨rfl, rfl, rfl⟩
  | send _ _ _ ih =>
    exact ⟨ih.1.trans (sendSt_recs _ _ _ _), ih.2.1.trans (sendSt_published _ _ _ _),
      ih.2.2.trans (sendSt_uanswers _ _ _ _)⟩

theorem discoLoop_ok {q : Question} (hq : q.name = discoName) :
    ∀ (rs : List Nat) (fuel : Nat) (c : Core) (l : Lists), RInv c l →
      (∃ pre suf, c.published (bucket q.name sprime) = pre ++ suf ∧ suf.filter (c.isRec q.name q.type) = rs) →
      rs.length ≤ fuel →
      ∃ c' l', discoLoop q fuel rs.head? ⟨c, l⟩ = .ok ((), ⟨c', l'⟩) ∧ SendL rs c l c' l'
  | [], fuel, c, l, h, _, _ => ⟨c, l, by unfold discoLoop; rfl, .done h⟩
  | r :: rs, fuel + 1, c, l, h, ⟨pre0, suf0, hp0, hs0⟩, hf => by
    have hf : rs.length ≤ fuel := by simpa using hf
    obtain ⟨pre, suf, hp, hr, hs⟩ := mem_suffix_filter hp0 hs0
    obtain ⟨x, hx, hn, ht⟩ := isRec_name hr
    rw [List.head?_cons]
    unfold discoLoop
    rw [M.bind_ok (getRec_ok hx), if_pos (hn.trans hq)]
    have h2 := h.sendSt hx
    have hp2 : (sendSt c l r x).c.published (bucket q.name sprime) = pre ++ r :: suf := by
      rw [sendSt_published]; exact hp
    have hr2 : (sendSt c l r x).c.isRec q.name q.type r = true := by
      rw [isRec_congr (sendSt_recs c l r x)]; exact hr
    have hs2 : suf.filter ((sendSt c l r x).c.isRec q.name q.type) = rs := by
      rw [isRec_congr (sendSt_recs c l r x)]; exact hs
    obtain ⟨c', l', e, n⟩ := discoLoop_ok hq rs fuel _ _ h2 ⟨pre ++ [r], suf, by rw [hp2]; simp, hs2⟩ hf
    refine ⟨c', l', ?_, .send h hx n⟩
    refine (M.bind_ok (rSend_ok h hx)).trans ?_
    refine (M.bind_ok (rNext_ok h2 hp2 hr2)).trans ?_
    rw [hs2]
    exact e

/-- What a question does. -/
inductive InQ (env : Env) (m : Msg) (src : Addr) (q : Question) (did : Bool) (c : Core) (l : Lists) :
    Bool → Core → Lists → Prop
  /-- another class, or no record matches -/
  | none (h : q.cls ≠ c.cls ∨ c.matching q.name q.type = []) : InQ env m src q did c l did c l
  /-- service discovery -/
  | disco {c' : Core} {l' : Lists} (h : q.cls = c.cls) (hq : q.name = discoName)
      (hm : c.matching q.name q.type ≠ [])
      (n : SendL (c.matching q.name q.type) { c with disco := true } l c' l') : InQ env m src q did c l did c' l'
  /-- answers for everyone only -/
  | multi {t : ISt} (h : q.cls = c.cls) (hq : q.name ≠ discoName) (hm : c.matching q.name q.type ≠ [])
      (n : AnsL env src q m.an (c.matching q.name q.type) ⟨c, l, did, false⟩ t)
      (hp : t.conf = true ∨ src.port = 5353) : InQ env m src q did c l t.did t.c t.l
  /-- and a reply to the querier alone -/
  | uni {r : Nat} {rs : List Nat} {t : ISt} (h : q.cls = c.cls) (hq : q.name ≠ discoName)
      (hm : c.matching q.name q.type = r :: rs)
      (n : AnsL env src q m.an (c.matching q.name q.type) ⟨c, l, did, false⟩ t)
      (hp : t.conf = false ∧ src.port ≠ 5353) :
      InQ env m src q did c l t.did { t.c with uanswers := ⟨m.id, src, r⟩ :: t.c.uanswers } t.l

theorem InQ.inv {env : Env} {m : Msg} {src : Addr} {q : Question} {did did' : Bool} {c c' : Core} {l l' : Lists}
    (n : InQ env m src q did c l did' c' l') (h : DInv c l) : DInv c' l' := by
  cases n with
  | none _ => exact h
  | disco _ _ _ n =>
    exact ⟨(h.cinv.congr (c' := { c with disco := true }) rfl rfl rfl rfl rfl rfl).recfree n.recfree, n.inv⟩
  | multi _ _ _ n _ => exact ⟨n.cinv h.cinv, n.inv⟩
  | @uni r rs t _ _ hm n hp =>
    refine ⟨(n.cinv h.cinv).congr rfl rfl rfl rfl rfl rfl, ?_⟩
    have hr : c.isRec q.name q.type r = true := by
      have : r ∈ c.matching q.name q.type := by rw [hm]; simp
      exact (List.mem_filter.mp this).2
    obtain ⟨x, hx, _⟩ := isRec_name hr
    have hrec : t.c.recs = c.recs := (n.recs.2 hp.1).1
    have i := n.inv
    exact { i with
      uans := by
        intro u mu
        rcases List.mem_cons.mp mu with rfl | mu
        · show (t.c.recs r).isSome = true
          rw [hrec, hx]
          rfl
        · exact i.uans u mu }

theorem matching_le {c : Core} {l : Lists} (h : RInv c l) (host : Bytes) (type : Nat) :
    (c.matching host type).length ≤ l.size :=
  Nat.le_trans (List.length_filter_le _ _) (h.chain_le _)

theorem inQuestion_ok {env : Env} {m : Msg} {src : Addr} {q : Question} {did : Bool} {c : Core} {l : Lists}
    (h : RInv c l) : ∃ did' c' l', inQuestion env m src q did ⟨c, l⟩ = .ok (did', ⟨c', l'⟩) ∧
      InQ env m src q did c l did' c' l' := by
  unfold inQuestion
  rw [M.bind_ok core_ok]
  by_cases hc : q.cls = c.cls
  · rw [if_neg (fun e => e hc), M.bind_ok (rFirst_ok h _ _)]
    cases hm : c.matching q.name q.type with
    | nil => exact ⟨did, c, l, rfl, .none (.inr hm)⟩
    | cons r rs =>
      have hne : c.matching q.name q.type ≠ [] := by rw [hm]; simp
      have hlen := matching_le h q.name q.type
      rw [hm] at hlen
      simp only [List.head?_cons]
      rw [M.bind_ok qFuel_ok]
      by_cases hq : q.name = discoName
      · rw [if_pos hq, M.bind_ok modC_ok]
        obtain ⟨c', l', e, n⟩ := discoLoop_ok hq (r :: rs) l.size { c with disco := true } l (h.congr rfl rfl rfl)
          ⟨[], _, rfl, hm⟩ hlen
        refine ⟨did, c', l', ?_, .disco hc hq hne (by rw [hm]; exact n)⟩
        rw [List.head?_cons] at e
        rw [M.bind_ok e]
        rfl
      · rw [if_neg hq]
        obtain ⟨t, e, n⟩ := answerLoop_ok (env := env) (src := src) (q := q) (an := m.an) (r :: rs) l.size
          ⟨c, l, did, false⟩ h ⟨[], _, rfl, hm⟩ hlen
        rw [List.head?_cons] at e
        rw [M.bind_ok e]
        have n' : AnsL env src q m.an (c.matching q.name q.type) ⟨c, l, did, false⟩ t := by rw [hm]; exact n
        by_cases hp : t.conf = false ∧ src.port ≠ 5353
        · refine ⟨t.did, _, t.l, ?_, .uni hc hq hm n' hp⟩
          rw [if_pos (show ¬ t.conf = true ∧ src.port ≠ 5353 from ⟨by simp [hp.1], hp.2⟩)]
          rfl
        · refine ⟨t.did, t.c, t.l, ?_, .multi hc hq hne n' ?_⟩
          · rw [if_neg (fun hh : ¬ t.conf = true ∧ src.port ≠ 5353 => hp ⟨by simpa using hh.1, hh.2⟩)]
            rfl
          · cases hcf : t.conf with
            | true => exact .inl rfl
            | false => exact .inr (Decidable.byContradiction fun e => hp ⟨hcf, e⟩)
  · rw [if_pos hc]
    exact ⟨did, c, l, rfl, .none (.inl hc)⟩

/-- What the questions of a message do. -/
inductive InQs (env : Env) (m : Msg) (src : Addr) : List Question → Bool → Core → Lists → Core → Lists → Prop
  | nil {did : Bool} {c : Core} {l : Lists} : InQs env m src [] did c l c l
  | cons {q : Question} {qs : List Question} {did did' : Bool} {c c1 c' : Core} {l l1 l' : Lists}
      (i : DInv c l) (h : InQ env m src q did c l did' c1 l1) (n : InQs env m src qs did' c1 l1 c' l') :
      InQs env m src (q :: qs) did c l c' l'

theorem InQs.inv {env : Env} {m : Msg} {src : Addr} {qs : List Question} {did : Bool} {c c' : Core} {l l' : Lists}
    (n : InQs env m src qs did c l c' l') (h : DInv c l) : DInv c' l' := by
  induction n with
  | nil => exact h
  | cons _ h1 _ ih => exact ih (h1.inv h)

theorem inQuestions_ok {env : Env} {m : Msg} {src : Addr} : ∀ (qs : List Question) (did : Bool) {c : Core} {l : Lists},
    DInv c l → ∃ c' l', inQuestions env m src qs did ⟨c, l⟩ = .ok ((), ⟨c', l'⟩) ∧ InQs env m src qs did c l c' l'
  | [], did, c, l, h => ⟨c, l, rfl, .nil⟩
  | q :: qs, did, c, l, h => by
    obtain ⟨did', c1, l1, e1, n1⟩ := inQuestion_ok (env := env) (m := m) (src := src) (q := q) (did := did) h.rinv
    obtain ⟨c', l', e, n⟩ := inQuestions_ok qs did' (n1.inv h)
    refine ⟨c', l', ?_, .cons h n1 n⟩
    unfold inQuestions
    rw [M.bind_ok e1]
    exact e

/-- Passing an answer on and caching it. -/
def Core.received (c : Core) (a : Resource) : Core := c.heard (if c.recvCb then [.received a] else [])

/-- The record an answer conflicts with. -/
def Core.rival (c : Core) (a : Resource) : Option Nat :=
  match (c.matching a.name a.type).head? with
  | none => none
  | some r =>
    match c.recs r with
    | none => none
    | some x => if x.unique ≠ 0 ∧ x.modified ∧ aMatch a x.rr then some r else none

/-- What an answer does. -/
inductive InA (env : Env) (src : Addr) (a : Resource) (did : Bool) (c : Core) (l : Lists) :
    Bool → Core → Lists → Prop
  /-- it is cached -/
  | cache {c' : Core} (h : c.rival a = none) (e : (c.received a).cacheIn env a src = .ok c') :
      InA env src a did c l did c' l
  /-- it is for a record of our own and comes from ourselves: ignored -/
  | own {r : Nat} {c' : Core} (h : c.rival a = some r) (hl : Locals env c c') (hf : ¬ Foreign env c src) :
      InA env src a did c l true c' l
  /-- the record is given up -/
  | conflict {r : Nat} {x : Rec} {c1 c' : Core} (h : c.rival a = some r) (hl : Locals env c c1) (hx : c1.recs r = some x)
      (hu : x.unique ≠ 0 ∧ x.modified = true ∧ aMatch a x.rr = true)
      (e : ((doneSt (c1.heard [.conflict r x.rr.name x.rr.type]) l r x).c.received a).cacheIn env a src = .ok c') :
      InA env src a did c l true c' (doneSt (c1.heard [.conflict r x.rr.name x.rr.type]) l r x).q

theorem CInv.received {c : Core} (h : CInv c) (a : Resource) : CInv (c.received a) := by
  unfold Core.received
  refine h.heard fun e m => ?_
  split at m
  · rw [List.mem_singleton] at m
    subst m
    trivial
  · cases m

theorem doneSt_recfree (c : Core) (l : Lists) (r : Nat) (x : Rec) : (doneSt c l r x).c.recfree = c.recfree := by
  unfold doneSt
  split
  · rfl
  · rw [sendSt_recfree]
    rfl

theorem cached_inv {env : Env} {a : Resource} {src : Addr} {c c' : Core} {l : Lists} (h : DInv c l) (ha : a.WF)
    (e : (c.received a).cacheIn env a src = .ok c') : DInv c' l := by
  obtain ⟨c1, c2, ev1, ev2, e2, hc, _⟩ := (h.cinv.received a).cacheIn env ha src
  rw [e] at e2
  cases e2
  exact ⟨hc.inv, RInv.rest (h.rinv.congr (c' := c.received a) rfl rfl rfl) hc.rest⟩

theorem done_inv {env : Env} {c c1 : Core} {l : Lists} (h : DInv c l) (hl : Locals env c c1) {r : Nat} {x : Rec}
    (hx : c1.recs r = some x) : DInv (doneSt (c1.heard [.conflict r x.rr.name x.rr.type]) l r x).c
      (doneSt (c1.heard [.conflict r x.rr.name x.rr.type]) l r x).q := by
  have h1 : RInv (c1.heard [.conflict r x.rr.name x.rr.type]) l := (hl.rinv h.rinv).congr rfl rfl rfl
  have h2 : CInv (c1.heard [.conflict r x.rr.name x.rr.type]) :=
    (hl.cinv h.cinv).heard1 (e := .conflict _ _ _) trivial
  exact ⟨h2.recfree (doneSt_recfree _ _ _ _), h1.doneSt hx⟩

theorem InA.inv {env : Env} {src : Addr} {a : Resource} {did did' : Bool} {c c' : Core} {l l' : Lists}
    (n : InA env src a did c l did' c' l') (ha : a.WF) (h : DInv c l) : DInv c' l' := by
  cases n with
  | cache _ e => exact cached_inv h ha e
  | own _ hl _ => exact ⟨hl.cinv h.cinv, hl.rinv h.rinv⟩
  | conflict _ hl hx _ e => exact cached_inv (done_inv h hl hx) ha e

theorem conflict_ok {c : Core} {l : Lists} (h : RInv c l) {r : Nat} {x : Rec} (hx : c.recs r = some x)
    (hu : x.unique ≠ 0) : Mdns.conflict r ⟨c, l⟩ = .ok ((), doneSt (c.heard [.conflict r x.rr.name x.rr.type]) l r x) := by
  have h3 : RInv (c.heard [.conflict r x.rr.name x.rr.type]) l := h.congr rfl rfl rfl
  have e3 : done r ⟨c.heard [.conflict r x.rr.name x.rr.type], l⟩ = _ := done_ok h3 hx
  unfold Mdns.conflict
  rw [M.bind_ok (getRec_ok hx)]
  obtain ⟨cf, hcf⟩ := Option.isSome_iff_exists.mp (h.conf r x hx hu)
  rw [hcf]
  dsimp only
  rw [M.bind_ok modC_ok]
  exact e3

theorem inAnswer_rest_ok {env : Env} {src : Addr} {a : Resource} {c c' : Core} {l : Lists}
    (e : (c.received a).cacheIn env a src = .ok c') : inAnswer.rest env src a ⟨c, l⟩ = .ok ((), ⟨c', l⟩) := by
  unfold inAnswer.rest
  rw [M.bind_ok modC_ok]
  have e0 : (if c.recvCb = true then { c with log := c.log ++ [Event.received a] } else c) = c.received a := by
    unfold Core.received
    split
    · rfl
    · exact (heard_nil c).symm
  rw [e0]
  refine liftC_ok ?_
  rw [e]
  rfl

/-- The rest of `inAnswer` once it is known which record is in conflict. -/
def inAnswerK (env : Env) (src : Addr) (a : Resource) (did : Bool) (bad : Option Nat) : M Lists Bool :=
  match bad with
  | none => do
    inAnswer.rest env src a
    pure did
  | some r => do
    if !did then modC (refreshLocals env true)
    if ← isLocal env src then pure true
    else do
      Mdns.conflict r
      inAnswer.rest env src a
      pure true

theorem inAnswer_ok {env : Env} {src : Addr} {a : Resource} {did : Bool} {c : Core} {l : Lists}
    (h : DInv c l) (ha : a.WF) : ∃ did' c' l', inAnswer env src a did ⟨c, l⟩ = .ok (did', ⟨c', l'⟩) ∧
      InA env src a did c l did' c' l' := by
  have cacheOk : ∀ {c : Core} {l : Lists}, DInv c l → ∃ c', (c.received a).cacheIn env a src = .ok c' := by
    intro c l h
    obtain ⟨_, c', _, _, e, _⟩ := (h.cinv.received a).cacheIn env ha src
    exact ⟨c', e⟩
  have key : ∀ bad, c.rival a = bad → ∃ did' c' l', inAnswerK env src a did bad ⟨c, l⟩ = .ok (did', ⟨c', l'⟩) ∧
      InA env src a did c l did' c' l' := by
    intro bad hb
    cases bad with
    | none =>
      obtain ⟨c', e⟩ := cacheOk h
      refine ⟨did, c', l, ?_, .cache hb e⟩
      unfold inAnswerK
      dsimp only
      rw [M.bind_ok (inAnswer_rest_ok e)]
      rfl
    | some r =>
      have hr := hb
      unfold Core.rival at hr
      split at hr
      · cases hr
      · rename_i r' hm
        split at hr
        · cases hr
        · rename_i x hx
          split at hr
          · rename_i hu
            cases hr
            have e1 : ∃ c1 : Core, inAnswerK env src a did (some r) ⟨c, l⟩ = (do
                if ← isLocal env src then pure true
                else do
                  Mdns.conflict r
                  inAnswer.rest env src a
                  pure true : M Lists Bool) ⟨c1, l⟩ ∧ Locals env c c1 ∧ (Foreign env c src → Foreign env c1 src) := by
              cases did with
              | true => exact ⟨c, rfl, .refl c, id⟩
              | false => exact ⟨refreshLocals env true c, rfl, refreshLocals_locals env true c, fun hf => hf.refresh true⟩
            obtain ⟨c1, e1, l1, f1⟩ := e1
            rw [e1]
            obtain ⟨b, c2, e2, l2, f2⟩ := isLocal_ok env src c1 l
            rw [M.bind_ok e2]
            cases b with
            | true =>
              refine ⟨true, c2, l, rfl, .own hb (l1.trans l2) fun f => ?_⟩
              exact absurd (f2 (f1 f)).1 (by simp)
            | false =>
              have hx2 : c2.recs r = some x := by rw [l2.recs, l1.recs]; exact hx
              have hl2 := l1.trans l2
              obtain ⟨c', e⟩ := cacheOk (done_inv h hl2 hx2)
              refine ⟨true, c', _, ?_, .conflict hb hl2 hx2 hu e⟩
              rw [if_neg (by simp), M.bind_ok (conflict_ok (hl2.rinv h.rinv) hx2 hu.1)]
              refine (M.bind_ok (inAnswer_rest_ok e)).trans ?_
              rfl
          · cases hr
  obtain ⟨did', c', l', e, n⟩ := key _ rfl
  refine ⟨did', c', l', ?_, n⟩
  rw [← e]
  unfold inAnswer
  rw [M.bind_ok (rFirst_ok h.rinv _ _)]
  unfold Core.rival
  cases hm : (c.matching a.name a.type).head? with
  | none => rfl
  | some r =>
    have : r ∈ c.matching a.name a.type := List.mem_of_head? hm
    obtain ⟨x, hx, _⟩ := isRec_name (List.mem_filter.mp this).2
    dsimp only
    rw [M.bind_ok (getRec_ok hx), hx]
    rfl

/-- What the answers of a message do. -/
inductive InAs (env : Env) (src : Addr) : List Resource → Bool → Core → Lists → Core → Lists → Prop
  | nil {did : Bool} {c : Core} {l : Lists} : InAs env src [] did c l c l
  | cons {a : Resource} {as : List Resource} {did did' : Bool} {c c1 c' : Core} {l l1 l' : Lists}
      (i : DInv c l) (h : InA env src a did c l did' c1 l1) (n : InAs env src as did' c1 l1 c' l') :
      InAs env src (a :: as) did c l c' l'

theorem InAs.inv {env : Env} {src : Addr} {as : List Resource} {did : Bool} {c c' : Core} {l l' : Lists}
    (n : InAs env src as did c l c' l') (ha : ∀ a ∈ as, a.WF) (h : DInv c l) : DInv c' l' := by
  induction n with
  | nil => exact h
  | cons _ h1 _ ih => exact ih (fun a m => ha a (by simp [m])) (h1.inv (ha _ (by simp)) h)

theorem inAnswers_ok {env : Env} {src : Addr} : ∀ (as : List Resource) (did : Bool) {c : Core} {l : Lists},
    (∀ a ∈ as, a.WF) → DInv c l →
    ∃ c' l', inAnswers env src as did ⟨c, l⟩ = .ok ((), ⟨c', l'⟩) ∧ InAs env src as did c l c' l'
  | [], did, c, l, _, h => ⟨c, l, rfl, .nil⟩
  | a :: as, did, c, l, ha, h => by
    obtain ⟨did', c1, l1, e1, n1⟩ := inAnswer_ok (env := env) (src := src) (did := did) h (ha a (by simp))
    obtain ⟨c', l', e, n⟩ := inAnswers_ok as did' (fun a m => ha a (by simp [m])) (n1.inv (ha a (by simp)) h)
    refine ⟨c', l', ?_, .cons h n1 n⟩
    unfold inAnswers
    rw [M.bind_ok e1]
    exact e

/-- What a received message does. -/
inductive InMsg (env : Env) (now : TV) (m : Msg) (src : Addr) (c : Core) (l : Lists) : Nat → Core → Lists → Prop
  | shutdown (h : c.shutdown = true) : InMsg env now m src c l 1 c l
  /-- a packet of our own is ignored -/
  | own {c' : Core} (h : c.shutdown = false) (hl : Locals env { c with now := now } c')
      (hf : ¬ Foreign env { c with now := now } src) : InMsg env now m src c l 0 c' l
  | query {c1 c' : Core} {l' : Lists} (h : c.shutdown = false) (hq : m.header.qr = false)
      (hl : Locals env { c with now := now } c1)
      (hf : Foreign env { c with now := now } src → Foreign env c1 src)
      (n : InQs env m src m.qd false c1 l c' l') : InMsg env now m src c l 0 c' l'
  | response {c1 c' : Core} {l' : Lists} (h : c.shutdown = false) (hq : m.header.qr = true)
      (hl : Locals env { c with now := now } c1)
      (hf : Foreign env { c with now := now } src → Foreign env c1 src)
      (n : InAs env src m.an false c1 l c' l') : InMsg env now m src c l 0 c' l'

theorem DInv.atNow {c : Core} {l : Lists} (h : DInv c l) (now : TV) : DInv { c with now := now } l :=
  ⟨h.cinv.congr rfl rfl rfl rfl rfl rfl, h.rinv.congr rfl rfl rfl⟩

theorem InMsg.inv {env : Env} {now : TV} {m : Msg} {src : Addr} {c c' : Core} {l l' : Lists} {ret : Nat}
    (n : InMsg env now m src c l ret c' l') (hm : ∀ a ∈ m.an, a.WF) (h : DInv c l) : DInv c' l' := by
  cases n with
  | shutdown _ => exact h
  | own _ hl _ => exact ⟨hl.cinv (h.atNow now).cinv, hl.rinv (h.atNow now).rinv⟩
  | query _ _ hl _ n => exact n.inv ⟨hl.cinv (h.atNow now).cinv, hl.rinv (h.atNow now).rinv⟩
  | response _ _ hl _ n => exact n.inv hm ⟨hl.cinv (h.atNow now).cinv, hl.rinv (h.atNow now).rinv⟩

theorem inMsg_ok {env : Env} {now : TV} {m : Msg} {src : Addr} {c : Core} {l : Lists} (h : DInv c l)
    (hm : ∀ a ∈ m.an, a.WF) : ∃ ret c' l', inMsg env now m src ⟨c, l⟩ = .ok (ret, ⟨c', l'⟩) ∧
      InMsg env now m src c l ret c' l' := by
  unfold inMsg
  rw [M.bind_ok core_ok]
  cases hs : c.shutdown with
  | true => exact ⟨1, c, l, rfl, .shutdown hs⟩
  | false =>
    rw [if_neg (by simp), M.bind_ok modC_ok]
    have h0 := h.atNow now
    obtain ⟨b, c1, e1, hl, hf⟩ := isLocal_ok env src { c with now := now } l
    have h1 : DInv c1 l := ⟨hl.cinv h0.cinv, hl.rinv h0.rinv⟩
    rw [M.bind_ok e1]
    cases b with
    | true => exact ⟨0, c1, l, rfl, .own hs hl fun f => absurd (hf f).1 (by simp)⟩
    | false =>
      cases hq : m.header.qr with
      | false =>
        obtain ⟨c', l', e, n⟩ := inQuestions_ok (env := env) (m := m) (src := src) m.qd false h1
        refine ⟨0, c', l', ?_, .query hs hq hl (fun f => (hf f).2) n⟩
        refine (M.bind_ok e).trans ?_
        rfl
      | true =>
        obtain ⟨c', l', e, n⟩ := inAnswers_ok (env := env) (src := src) m.an false hm h1
        refine ⟨0, c', l', ?_, .response hs hq hl (fun f => (hf f).2) n⟩
        refine (M.bind_ok e).trans ?_
        rfl

end Mdns
