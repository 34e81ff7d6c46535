import Verif.Lemmas.Sending

/-!
# Packets repeat nothing and empty the queues
-/

namespace Mdns

/-! ### What is in a packet is known -/

/-- What the packet has is remembered or freed, as long as it is not too much. -/
structure Recall (s : OSt) : Prop where
  ans : Answering s
  sub : ∀ r ∈ s.seen, (.an, r) ∈ s.m.tags
  all : s.m.tags.length ≤ additionalMax → ∀ t ∈ s.m.tags, t.2 ∈ s.seen ∨ s.c.recs t.2 = none

theorem Recall.start (c : Core) (l : Lists) : Recall ⟨c, l, {}, [], 0⟩ :=
  ⟨.start c l, by simp, by simp⟩

theorem answeredAdd_mem {seen : List Nat} {r s : Nat} (h : s ∈ seen) : s ∈ answeredAdd seen r := by
  unfold answeredAdd
  split
  · simp [h]
  · exact h

theorem answeredAdd_self {seen : List Nat} {r : Nat} (h : seen.length < additionalMax) : r ∈ answeredAdd seen r := by
  unfold answeredAdd
  rw [if_pos h]
  simp

theorem Recall.send {s : OSt} (h : Recall s) {r : Nat} {a : Answer} {cls : Nat} {c : Core} {l : Lists} {x y : Rec}
    (hx : s.c.recs r = some x) (e : c.recs = upd s.c.recs r (some y)) :
    Recall ⟨c, l, s.m.put .an r a cls, answeredAdd s.seen r, s.ret + 1⟩ := by
  refine ⟨h.ans.put (answeredAdd_length _ _), ?_, ?_⟩
  · intro q m
    show (Section.an, q) ∈ (s.m.put .an r a cls).tags
    rw [put_tags]
    rcases mem_answeredAdd m with m | rfl
    · exact List.mem_append_left _ (h.sub q m)
    · simp
  · intro hl t m
    have m : t ∈ (s.m.put .an r a cls).tags := m
    have hl : (s.m.put .an r a cls).tags.length ≤ additionalMax := hl
    rw [put_tags] at m hl
    rw [List.length_append, List.length_singleton] at hl
    rcases List.mem_append.mp m with m | m
    · rcases h.all (by omega) t m with h1 | h1
      · exact .inl (answeredAdd_mem h1)
      · right
        show c.recs t.2 = none
        rw [e, upd_other _ _ _ _ fun e => by rw [e, hx] at h1; cases h1]
        exact h1
    · rw [List.mem_singleton] at m
      subst m
      exact .inl (answeredAdd_self (by have h1 := h.ans.ret; have h2 := h.ans.seen; omega))

theorem Recall.bye {s : OSt} (h : Recall s) {r : Nat} {a : Answer} {cls : Nat} {c : Core} {l : Lists}
    (e : c.recs = upd s.c.recs r none) :
    Recall ⟨c, l, s.m.put .an r a cls, s.seen, s.ret + 1⟩ := by
  refine ⟨h.ans.put (Nat.le_succ _), ?_, ?_⟩
  · intro q m
    show (Section.an, q) ∈ (s.m.put .an r a cls).tags
    rw [put_tags]
    exact List.mem_append_left _ (h.sub q m)
  · intro hl t m
    have m : t ∈ (s.m.put .an r a cls).tags := m
    have hl : (s.m.put .an r a cls).tags.length ≤ additionalMax := hl
    rw [put_tags] at m hl
    rw [List.length_append, List.length_singleton] at hl
    have hn : c.recs r = none := by rw [e, upd_same]
    rcases List.mem_append.mp m with m | m
    · rcases h.all (by omega) t m with h1 | h1
      · exact .inl h1
      · right
        show c.recs t.2 = none
        by_cases er : t.2 = r
        · rw [er, hn]
        · rw [e, upd_other _ _ _ _ er]
          exact h1
    · rw [List.mem_singleton] at m
      subst m
      exact .inr hn

theorem ROut.recall {w : W} {s t : OSt} (n : ROut w s t) (h : Recall s) : Recall t := by
  induction n with
  | empty => exact h
  | full => exact h
  | skip _ _ _ _ _ _ ih => exact ih ⟨⟨h.ans.tags, h.ans.ret, h.ans.seen, h.ans.noq⟩, h.sub, h.all⟩
  | send _ _ hx _ _ _ _ ih => exact ih (h.send hx rfl)
  | bye _ _ _ _ _ _ _ ih => exact ih (h.bye rfl)

theorem PubL.recall {pre suf : List Nat} {s t : OSt} (n : PubL pre suf s t) (h : Recall s) : Recall t := by
  induction n with
  | done => exact h
  | full => exact h
  | keep _ _ hx _ _ _ _ ih => exact ih (h.send hx rfl)
  | last _ _ hx _ _ _ _ ih => exact ih (h.send hx rfl)
  | bye _ _ _ _ _ _ ih => exact ih (h.bye rfl)

theorem PubOpt.recall {s t : OSt} (n : PubOpt s t) (h : Recall s) : Recall t := by
  cases n with
  | no => exact h
  | @yes t _ _ _ n =>
    have := n.recall h
    refine ⟨⟨this.ans.tags, this.ans.ret, this.ans.seen, this.ans.noq⟩, this.sub, ?_⟩
    have e : (if t.l.q .publish ≠ [] then { t.c with publish := ⟨t.c.now.sec + 2, t.c.now.usec⟩ } else t.c).recs =
        t.c.recs := by split <;> rfl
    simp only [e]
    exact this.all

theorem PauseOpt.recall {s t : OSt} (n : PauseOpt s t) (h : Recall s) : Recall t := by
  cases n with
  | no => exact h
  | yes _ _ n => exact n.recall h

/-! ### Additional records -/

theorem AddL.extra {c : Core} {J : Nat → Prop} {m m' : Out} {s s' : List Nat} (n : AddL c J m s m' s') :
    ∀ t ∈ m'.tags, t ∈ m.tags ∨ (t.1 = .ar ∧ J t.2) := by
  induction n with
  | nil => exact fun t m => .inl m
  | add _ _ _ _ j ih =>
    intro t m
    rw [put_tags] at m
    rcases List.mem_append.mp m with m | m
    · exact ih t m
    · rw [List.mem_singleton] at m
      subst m
      exact .inr ⟨rfl, j⟩

theorem AddL.nodup {c : Core} {J : Nat → Prop} {m m' : Out} {s s' : List Nat} (n : AddL c J m s m' s')
    (hn : (m.tags.map (·.2)).Nodup) (hs : s.length ≤ m.tags.length)
    (ha : m.tags.length ≤ additionalMax → ∀ t ∈ m.tags, t.2 ∈ s ∨ c.recs t.2 = Option.none) :
    (m'.tags.length ≤ additionalMax → (m'.tags.map (·.2)).Nodup) ∧ s'.length ≤ m'.tags.length ∧
      (m'.tags.length ≤ additionalMax → ∀ t ∈ m'.tags, t.2 ∈ s' ∨ c.recs t.2 = Option.none) := by
  induction n with
  | nil => exact ⟨fun _ => hn, hs, ha⟩
  | @add _ _ _ r x n hr hx hf j ih =>
    obtain ⟨h1, h2, h3⟩ := ih hs ha
    rw [put_tags]
    simp only [List.length_append, List.length_singleton, List.map_append, List.map_singleton]
    refine ⟨fun hl => ?_, ?_, fun hl t m => ?_⟩
    · rw [List.nodup_append]
      refine ⟨h1 (by omega), by simp, ?_⟩
      intro a ha b hb e
      rw [List.mem_singleton] at hb
      subst hb
      subst e
      obtain ⟨t, ht, rfl⟩ := List.mem_map.mp ha
      rcases h3 (by omega) t ht with h | h
      · exact hr h
      · rw [h] at hx
        cases hx
    · exact Nat.le_trans (answeredAdd_length _ _) (Nat.succ_le_succ h2)
    · rcases List.mem_append.mp m with m | m
      · rcases h3 (by omega) t m with h | h
        · exact .inl (answeredAdd_mem h)
        · exact .inr h
      · rw [List.mem_singleton] at m
        subst m
        exact .inl (answeredAdd_self (by omega))

/-! ### Whole packets -/

/-- What was taken from the queues for a packet. -/
structure Taken (l : Lists) (tags : List (Section × Nat)) (as : List Nat) : Prop where
  tags : tags = as.map fun r => (.an, r)
  parts : ∃ a b z, as = a ++ b ++ z ∧ a.Sublist (l.q .now) ∧ b.Sublist (l.q .publish) ∧ z.Sublist (l.q .pause)

theorem Taken.nodup {c : Core} {l : Lists} {tags : List (Section × Nat)} {as : List Nat} (h : Taken l tags as) (i : RInv c l) :
    as.Nodup := by
  obtain ⟨a, b, z, rfl, ha, hb, hz⟩ := h.parts
  rw [List.nodup_append, List.nodup_append]
  refine ⟨⟨ha.nodup (i.nodup _), hb.nodup (i.nodup _), ?_⟩, hz.nodup (i.nodup _), ?_⟩
  · rintro r m _ m' rfl
    cases i.disj _ _ _ (ha.subset m) (hb.subset m')
  · rintro r m _ m' rfl
    rcases List.mem_append.mp m with m | m
    · cases i.disj _ _ _ (ha.subset m) (hz.subset m')
    · cases i.disj _ _ _ (hb.subset m) (hz.subset m')

theorem PubOpt.flow {s t : OSt} (n : PubOpt s t) : ∃ sent : List Nat, sent.Sublist (s.l.q .publish) ∧
    t.m.tags = s.m.tags ++ sent.map (fun r => (.an, r)) ∧ (∀ v, v ≠ .publish → t.l.q v = s.l.q v) ∧
    t.ret = s.ret + sent.length ∧ t.c.todo (t.l.q .publish) + sent.length ≤ s.c.todo (s.l.q .publish) ∧
    (sent = [] → t.m = s.m) := by
  cases n with
  | no => exact ⟨[], by simp, by simp, fun _ _ => rfl, rfl, Nat.le_refl _, fun _ => rfl⟩
  | @yes t _ _ _ n =>
    obtain ⟨p, q, k, f⟩ := n.flow
    refine ⟨p, by rw [f.suf]; exact List.sublist_append_left .., f.tags, f.other, f.ret, ?_, fun e => by rw [f.idle e]⟩
    refine Nat.le_trans (Nat.le_of_eq ?_) f.load
    congr 1
    refine Core.todo_congr fun r _ => ?_
    unfold Core.retries
    have e : (if t.l.q .publish ≠ [] then { t.c with publish := ⟨t.c.now.sec + 2, t.c.now.usec⟩ } else t.c).recs =
        t.c.recs := by split <;> rfl
    rw [e]

theorem PauseOpt.flow {s t : OSt} (n : PauseOpt s t) : ∃ sent : List Nat, sent.Sublist (s.l.q .pause) ∧
    t.m.tags = s.m.tags ++ sent.map (fun r => (.an, r)) ∧ (∀ v, v ≠ .pause → t.l.q v = s.l.q v) := by
  cases n with
  | no => exact ⟨[], by simp, by simp, fun _ _ => rfl⟩
  | yes _ _ n =>
    obtain ⟨p, q, f⟩ := n.flow
    exact ⟨q, f.sub.trans (by rw [f.q]; exact List.sublist_append_left ..), f.tags, f.other⟩

theorem taken_two {c : Core} {l : Lists} {s1 s2 : OSt} (n1 : ROut .now ⟨c, l, {}, [], 0⟩ s1) (n2 : PubOpt s1 s2) :
    ∃ a b : List Nat, s2.m.tags = (a ++ b).map (fun r => (.an, r)) ∧ a.Sublist (l.q .now) ∧ b.Sublist (l.q .publish) ∧
      s2.l.q .pause = l.q .pause := by
  obtain ⟨p, a, f⟩ := n1.flow
  obtain ⟨b, h1, h2, h3, _⟩ := n2.flow
  refine ⟨a, b, ?_, f.sub.trans ?_, ?_, ?_⟩
  · have e1 : s1.m.tags = a.map fun r => (.an, r) := f.tags
    rw [h2, e1, List.map_append]
  · have e1 : l.q .now = p ++ s1.l.q .now := f.q
    rw [e1]
    exact List.sublist_append_left ..
  · have e1 : s1.l.q .publish = l.q .publish := f.other _ (by decide)
    rw [← e1]
    exact h1
  · exact (h3 _ (by decide)).trans (f.other _ (by decide))

/-- No record is twice in the answer section; and none twice in the packet at all if it has at
most 64 entries. -/
theorem OutMsg.nodup {env : Env} {c : Core} {l : Lists} {ret : Nat} {m : Out} {to : Addr} {c' : Core} {l' : Lists}
    (n : OutMsg env c l ret m to c' l') (i : RInv c l) :
    (m.tags.filter fun t => t.1 = .an).Nodup ∧ (m.tags.length ≤ additionalMax → (m.tags.map (·.2)).Nodup) := by
  have inj : ∀ {s : Section} {as : List Nat}, as.Nodup → (as.map fun r => (s, r)).Nodup := by
    intro s as h
    unfold List.Nodup at *
    rw [List.pairwise_map]
    exact h.imp fun {a b} h e => h (Prod.mk.inj e).2
  have ids : ∀ {s : Section} {as : List Nat}, (as.map fun r => (s, r)).map (·.2) = as := by
    intro s as
    rw [List.map_map]
    exact List.map_id' as
  have filt : ∀ {as xs : List Nat}, as.Nodup →
      (List.filter (fun t : Section × Nat => t.1 = .an)
        ((as.map fun r => (Section.an, r)) ++ xs.map fun r => (Section.ar, r))).Nodup := by
    intro as xs h
    rw [List.filter_append]
    have e1 : (xs.map fun r => (Section.ar, r)).filter (fun t => t.1 = .an) = [] := by
      rw [List.filter_eq_nil_iff]
      intro t m
      obtain ⟨_, _, rfl⟩ := List.mem_map.mp m
      simp
    rw [e1, List.append_nil]
    exact (inj h).filter _
  cases n with
  | @unicast u us x _ seen hu hx na =>
    obtain ⟨xs, e⟩ := na.tags
    have e0 : ((({ id := u.id } : Out).add [.b (.qd x.rr.name x.rr.type c.cls)]).put .an u.r x.rr c.cls).tags =
        [(.an, u.r)] := rfl
    constructor
    · rw [e, e0]
      exact filt (as := [u.r]) (by simp)
    · refine (na.nodup ?_ ?_ ?_).1
      · rw [e0]
        simp
      · rw [e0]
        exact Nat.le_refl 1
      · rw [e0]
        intro _ t m
        rw [List.mem_singleton] at m
        subst m
        simp
  | @shutdown s1 s2 hu n1 n2 _ =>
    obtain ⟨a, b, e, ha, hb, _⟩ := taken_two n1 n2
    have : (a ++ b).Nodup := Taken.nodup (c := c) (l := l) (tags := s2.m.tags) ⟨e, a, b, [], by simp, ha, hb, by simp⟩ i
    rw [e]
    refine ⟨?_, fun _ => by rw [ids]; exact this⟩
    simpa using filt (xs := []) this
  | @normal s1 s2 _ _ _ _ hu n1 n2 _ n3 =>
    obtain ⟨a, b, e, ha, hb, hz⟩ := taken_two n1 n2
    have rc := n2.recall (n1.recall (.start c l))
    have go : ∀ s3, PauseOpt s2 s3 → ∃ as : List Nat, s3.m.tags = as.map (fun r => (.an, r)) ∧ as.Nodup := by
      intro s3 np
      obtain ⟨z, z1, z2, _⟩ := np.flow
      have e' : s3.m.tags = (a ++ b ++ z).map fun r => (.an, r) := by
        rw [z2, e]
        simp
      exact ⟨_, e', Taken.nodup (c := c) (l := l) ⟨e', a, b, z, rfl, ha, hb, hz ▸ z1⟩ i⟩
    cases n3 with
    | @answers s3 _ _ np na hr =>
      obtain ⟨as, e1, h1⟩ := go s3 np
      obtain ⟨xs, e2⟩ := na.tags
      have rc := np.recall rc
      constructor
      · rw [e2, e1]
        exact filt h1
      · refine (na.nodup ?_ ?_ ?_).1
        · rw [e1, ids]
          exact h1
        · rw [← rc.ans.ret]
          exact rc.ans.seen
        · exact rc.all
    | @probes s3 s4 m0 seen np na hr nb hr2 =>
      have k := np.answering (rc.ans)
      obtain ⟨e1, e2⟩ := k.empty hr
      rw [e2] at na
      have := na.none
      subst this
      obtain ⟨rs, hn, e3, _⟩ := nb.tags
      have e3 : s4.m.tags = s3.m.tags ++ rs.map fun r => (.ns, r) := e3
      rw [e1, List.nil_append] at e3
      rw [e3]
      exact ⟨(inj hn).filter _, fun _ => by rw [ids]; exact hn⟩
    | @questions s3 s4 m0 seen _ _ _ _ np na hr nb hr2 nq ng =>
      have k := np.answering (rc.ans)
      obtain ⟨e1, e2⟩ := k.empty hr
      rw [e2] at na
      have := na.none
      subst this
      obtain ⟨rs, hn, e3, er⟩ := nb.tags
      have e3 : s4.m.tags = s3.m.tags ++ rs.map fun r => (.ns, r) := e3
      have er : s4.ret = s3.ret + rs.length := er
      have : rs = [] := List.eq_nil_of_length_eq_zero (by omega)
      subst this
      rw [nq.tags, e3, e1]
      simp

/-! ### The queues become shorter -/

/-- Entries that wait to be sent. -/
def waiting (c : Core) (l : Lists) : Nat :=
  c.uanswers.length + (l.q .now).length + (l.q .pause).length + c.todo (l.q .publish)

/-- Every record fits in an empty packet. -/
def FitsAlone (c : Core) : Prop := ∀ r x, c.recs r = some x → ({} : Out).len + rrLen x.rr < c.frame

theorem Kept.fits {c c' : Core} (h : Kept c c') (e : c'.frame = c.frame) (f : FitsAlone c) : FitsAlone c' := by
  intro r x hx
  obtain ⟨x0, h1, h2, _⟩ := h.2 r x hx
  rw [e, h2]
  exact f r x0 h1

theorem ROut.uanswers {w : W} {s t : OSt} (n : ROut w s t) (h : s.c.uanswers = []) : t.c.uanswers = [] := by
  have := n.slow.uans
  rw [h] at this
  cases e : t.c.uanswers with
  | nil => rfl
  | cons u us => exact absurd (this u (by rw [e]; simp)) (by simp)

theorem PubOpt.uanswers {s t : OSt} (n : PubOpt s t) (h : s.c.uanswers = []) : t.c.uanswers = [] := by
  have := n.slow.uans
  rw [h] at this
  cases e : t.c.uanswers with
  | nil => rfl
  | cons u us => exact absurd (this u (by rw [e]; simp)) (by simp)

/-- The record waits for an answer that is due at the time `now`. -/
def Due (now : TV) (c : Core) (l : Lists) (r : Nat) : Prop :=
  r ∈ l.q .now ∨ (r ∈ l.q .pause ∧ tvdiff now c.pause ≤ 0 ∧ c.shutdown = false)

/-- A record that waits for an answer is sent, or something else is and the record waits on. -/
theorem OutMsg.progress_ret {env : Env} {c : Core} {l : Lists} {ret : Nat} {m : Out} {to : Addr} {c' : Core} {l' : Lists}
    (n : OutMsg env c l ret m to c' l') (hd : c.disco = false) (hf : FitsAlone c) {r : Nat} (hr : Due c.now c l r) :
    (((.an, r) ∈ m.tags ∧ to = mcast c.family) ∨
      ((r ∈ l.q .now → r ∈ l'.q .now) ∧ (r ∈ l.q .pause → r ∈ l'.q .pause) ∧ waiting c' l' + 1 ≤ waiting c l)) ∧ ret ≠ 0 := by
  cases n with
  | @unicast u us x _ seen hu hx na =>
    refine ⟨?_, by decide⟩
    right
    refine ⟨id, id, ?_⟩
    unfold waiting
    have : ({ c with uanswers := us, recs := upd c.recs u.r (some { x with lastSent := c.now }) } : Core).todo
        (l.q .publish) = c.todo (l.q .publish) := by
      refine Core.todo_congr fun s _ => ?_
      unfold Core.retries
      show (match upd c.recs u.r _ s with | some x => 4 - x.tries | none => 0) = _
      by_cases e : s = u.r
      · subst e
        rw [upd_same, hx]
      · rw [upd_other _ _ _ _ e]
        rfl
    rw [this, hu]
    simp
    omega
  | @shutdown s1 s2 hu n1 n2 hs =>
    rcases hr with hr | ⟨_, _, hr⟩
    · obtain ⟨p, q, f⟩ := n1.flow
      obtain ⟨b, g1, g2, g3, g4, g5, g6⟩ := n2.flow
      have fq : l.q .now = p ++ s1.l.q .now := f.q
      have ft : s1.m.tags = q.map fun r => (.an, r) := f.tags
      rw [fq] at hr
      have hp : p ≠ [] := by
        intro e
        rcases f.stop with h | ⟨a, _, x, ha, hx, hn⟩
        · rw [e, h] at hr
          cases hr
        · rw [f.idle e] at hx hn
          exact hn (hf a x hx)
      have hp := List.length_pos_iff.mpr hp
      have fr : s1.ret = 0 + q.length := f.ret
      have fa := f.all hd
      refine ⟨?_, by rw [← fa] at hp; omega⟩
      rcases List.mem_append.mp hr with hm | hm
      · left
        rw [g2, ft, f.all hd]
        exact ⟨List.mem_append_left _ (List.mem_map.mpr ⟨r, hm, rfl⟩), rfl⟩
      · right
        have e1 : s2.l.q .now = s1.l.q .now := g3 _ (by decide)
        have e2 : s2.l.q .pause = s1.l.q .pause := g3 _ (by decide)
        have e3 : s1.l.q .pause = l.q .pause := f.other _ (by decide)
        have e4 : s1.c.todo (s1.l.q .publish) = c.todo (l.q .publish) := n1.todo (by decide)
        refine ⟨fun _ => by rw [e1]; exact hm, fun h => by rw [e2, e3]; exact h, ?_⟩
        unfold waiting
        rw [n2.uanswers (n1.uanswers hu), hu, e1, e2, e3, fq, List.length_append]
        omega
    · rw [hs] at hr
      cases hr
  | @normal s1 s2 _ _ _ _ hu n1 n2 hs n3 =>
    obtain ⟨p, q, f⟩ := n1.flow
    obtain ⟨b, g1, g2, g3, g4, g5, g6⟩ := n2.flow
    have fq : l.q .now = p ++ s1.l.q .now := f.q
    have ft : s1.m.tags = q.map fun r => (.an, r) := f.tags
    have fr : s1.ret = 0 + q.length := f.ret
    have fa := f.all hd
    have e1 : s2.l.q .now = s1.l.q .now := g3 _ (by decide)
    have e2 : s2.l.q .pause = s1.l.q .pause := g3 _ (by decide)
    have e3 : s1.l.q .pause = l.q .pause := f.other _ (by decide)
    have e4 : s1.c.todo (s1.l.q .publish) = c.todo (l.q .publish) := n1.todo (by decide)
    have u2 := n2.uanswers (n1.uanswers hu)
    have hc2 : s2.c.conf = c.conf := n2.conf.trans n1.conf.1
    obtain ⟨cn, cf, cp, cs, cd⟩ := Core.conf_eq hc2
    -- what the delayed answers do
    have pause : ∀ s3, PauseOpt s2 s3 → (s3.ret = 0 → False) → ∀ (hk : ∀ t ∈ s3.m.tags, t ∈ m.tags),
        ((Section.an, r) ∈ m.tags) ∨ ((r ∈ l.q .now → r ∈ s3.l.q .now) ∧ (r ∈ l.q .pause → r ∈ s3.l.q .pause) ∧
          waiting s3.c s3.l + 1 ≤ waiting c l) := by
      intro s3 np h0 hk
      have h0 : s3.ret ≠ 0 := h0
      cases np with
      | no hi hn =>
        have hr1 : r ∈ l.q .now := by
          rcases hr with hr | ⟨hr, ht, _⟩
          · exact hr
          · refine absurd ⟨?_, ?_⟩ hn
            · rw [e2, e3]
              exact List.ne_nil_of_mem hr
            · rw [cn, cp]
              exact ht
        rw [fq] at hr1
        rcases List.mem_append.mp hr1 with hm | hm
        · left
          refine hk _ ?_
          rw [g2, ft, fa]
          exact List.mem_append_left _ (List.mem_map.mpr ⟨r, hm, rfl⟩)
        · right
          refine ⟨fun _ => by rw [e1]; exact hm, fun h => by rw [e2, e3]; exact h, ?_⟩
          unfold waiting
          rw [u2, hu, e1, e2, e3, fq, List.length_append, ← fa]
          omega
      | yes h1 h2 np =>
        obtain ⟨p', q', f'⟩ := np.flow
        have f1 : s2.l.q .pause = p' ++ s3.l.q .pause := f'.q
        have f2 : s3.l.q .now = s2.l.q .now := f'.other _ (by decide)
        have fa' := f'.all (cd.trans hd)
        have e5 := np.todo (by decide)
        have fr' := f'.ret
        have u3 := np.uanswers u2
        by_cases hm : (Section.an, r) ∈ s3.m.tags
        · exact .inl (hk _ hm)
        · right
          have ht3 : s3.m.tags = (q.map fun r => (Section.an, r)) ++ (b.map fun r => (.an, r)) ++
              q'.map fun r => (.an, r) := by rw [f'.tags, g2, ft]
          have m1 : r ∉ q := fun h => hm (by rw [ht3]; simp [h])
          have m2 : r ∉ q' := fun h => hm (by rw [ht3]; simp [h])
          refine ⟨fun h => ?_, fun h => ?_, ?_⟩
          · rw [fq, ← fa] at h
            rw [f2, e1]
            exact (List.mem_append.mp h).resolve_left m1
          · rw [← e3, ← e2, f1, ← fa'] at h
            exact (List.mem_append.mp h).resolve_left m2
          · unfold waiting
            rw [u3, hu, f2, e1, ← e3, ← e2, f1, fq, List.length_append, List.length_append, ← fa, ← fa']
            omega
    -- if nothing was sent the record would fit
    have stuck : ∀ s3, PauseOpt s2 s3 → s3.ret = 0 → False := by
      intro s3 np h0
      cases np with
      | no hi hn =>
        have hr1 : r ∈ l.q .now := by
          rcases hr with hr | ⟨hr, ht, _⟩
          · exact hr
          · refine absurd ⟨?_, ?_⟩ hn
            · rw [e2, e3]
              exact List.ne_nil_of_mem hr
            · rw [cn, cp]
              exact ht
        have hq : q = [] := List.eq_nil_of_length_eq_zero (by omega)
        rw [hq] at fa
        rcases f.stop with h | ⟨a, _, x, ha, hx, hn⟩
        · rw [fq, ← fa, h] at hr1
          cases hr1
        · rw [f.idle fa.symm] at hx hn
          exact hn (hf a x hx)
      | yes h1 h2 np =>
        obtain ⟨p', q', f'⟩ := np.flow
        have fa' := f'.all (cd.trans hd)
        have fr' := f'.ret
        have hq : q = [] := List.eq_nil_of_length_eq_zero (by omega)
        have hb : b = [] := List.eq_nil_of_length_eq_zero (by omega)
        have hq' : q' = [] := List.eq_nil_of_length_eq_zero (by omega)
        rw [hq] at fa
        rw [hq'] at fa'
        have i1 := f.idle fa.symm
        have i2 := g6 hb
        have i3 := f'.idle fa'.symm
        subst i3
        rcases f'.stop with h | ⟨a, rs, x, ha, hx, hn⟩
        · exact h1 h
        · have k := n2.made (n1.made (c0 := c) ⟨Kept.refl c, .start ..⟩)
          obtain ⟨x0, h3, h4, _⟩ := k.kept.2 a x hx
          apply hn
          rw [i2, i1, cf, h4]
          exact hf a x0 h3
    cases n3 with
    | @answers s3 _ _ np na hr =>
      obtain ⟨xs, e⟩ := na.tags
      refine ⟨?_, hr⟩
      rcases pause s3 np (fun h => hr h) (fun t m => by rw [e]; exact List.mem_append_left _ m) with h | h
      · exact .inl ⟨h, rfl⟩
      · exact .inr h
    | probes np _ hr => exact (stuck _ np hr).elim
    | questions np _ hr => exact (stuck _ np hr).elim

theorem OutMsg.progress {env : Env} {c : Core} {l : Lists} {ret : Nat} {m : Out} {to : Addr} {c' : Core} {l' : Lists}
    (n : OutMsg env c l ret m to c' l') (hd : c.disco = false) (hf : FitsAlone c) {r : Nat} (hr : Due c.now c l r) :
    ((.an, r) ∈ m.tags ∧ to = mcast c.family) ∨
      ((r ∈ l.q .now → r ∈ l'.q .now) ∧ (r ∈ l.q .pause → r ∈ l'.q .pause) ∧ waiting c' l' + 1 ≤ waiting c l) :=
  (n.progress_ret hd hf hr).1

end Mdns
