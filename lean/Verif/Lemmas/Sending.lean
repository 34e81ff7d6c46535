import Verif.Lemmas.Stages

/-!
# What a packet takes from the queues
-/

namespace Mdns

/-- What the loops over the records leave alone. -/
def Core.conf (c : Core) : (TV × Nat × TV × Bool) × Bool × Family := ((c.now, c.frame, c.pause, c.shutdown), c.disco, c.family)

theorem Core.conf_eq {c c' : Core} (h : c'.conf = c.conf) : c'.now = c.now ∧ c'.frame = c.frame ∧ c'.pause = c.pause ∧
    c'.shutdown = c.shutdown ∧ c'.disco = c.disco := by
  simp only [Core.conf, Prod.mk.injEq] at h
  exact ⟨h.1.1, h.1.2.1, h.1.2.2.1, h.1.2.2.2, h.2.1⟩

theorem ROut.conf {w : W} {s t : OSt} (n : ROut w s t) : t.c.conf = s.c.conf ∧ t.c.publish = s.c.publish := by
  induction n with
  | empty => exact ⟨rfl, rfl⟩
  | full => exact ⟨rfl, rfl⟩
  | skip _ _ _ _ _ _ ih => exact ih
  | send _ _ _ _ _ _ _ ih => exact ih
  | bye _ _ _ _ _ _ _ ih => exact ih

theorem PubL.conf {pre suf : List Nat} {s t : OSt} (n : PubL pre suf s t) : t.c.conf = s.c.conf := by
  induction n with
  | done => rfl
  | full => rfl
  | keep _ _ _ _ _ _ _ ih => exact ih
  | last _ _ _ _ _ _ _ ih => exact ih
  | bye _ _ _ _ _ _ ih => exact ih

theorem ProbeA.conf {pre suf : List Nat} {s t : OSt} (n : ProbeA pre suf s t) : t.c.conf = s.c.conf := by
  induction n with
  | done => rfl
  | verified _ _ _ _ _ ih => exact ih
  | ask _ _ _ _ _ ih => exact ih

theorem ProbeB.conf {pre suf : List Nat} {s t : OSt} (n : ProbeB pre suf s t) :
    t.c.conf = s.c.conf ∧ t.c.publish = s.c.publish := by
  induction n with
  | done => exact ⟨rfl, rfl⟩
  | propose _ _ _ _ _ ih => exact ih

theorem PubOpt.conf {s t : OSt} (n : PubOpt s t) : t.c.conf = s.c.conf := by
  cases n with
  | no => rfl
  | @yes t _ _ _ n =>
    refine Eq.trans ?_ n.conf
    show (if _ then _ else _ : Core).conf = _
    split <;> rfl

theorem PauseOpt.conf {s t : OSt} (n : PauseOpt s t) : t.c.conf = s.c.conf ∧ t.c.publish = s.c.publish := by
  cases n with
  | no => exact ⟨rfl, rfl⟩
  | yes _ _ n => exact n.conf

theorem ProbeOpt.conf {s t : OSt} (n : ProbeOpt s t) : t.c.conf = s.c.conf := by
  cases n with
  | no => rfl
  | @yes _ t _ _ n n' =>
    refine Eq.trans ?_ (n'.conf.1.trans n.conf)
    show (if _ then _ else _ : Core).conf = _
    split <;> rfl

theorem GcOpt.conf {env : Env} {c c' : Core} (n : GcOpt env c c') : c'.conf = c.conf := by
  cases n with
  | no => rfl
  | yes hc hn e =>
    obtain ⟨c1, evs, e1, s1, _⟩ := hc.gc env
    rw [e1] at e
    cases e
    exact (congrArg Core.conf s1.rest : c1.rest.conf = c.rest.conf)

theorem OutRest.conf {env : Env} {s : OSt} {ret : Nat} {m : Out} {c : Core} {l : Lists} (n : OutRest env s ret m c l) :
    c.conf = s.c.conf := by
  cases n with
  | answers np _ _ => exact np.conf.1
  | probes np _ _ nb _ => exact nb.conf.trans np.conf.1
  | questions np _ _ nb _ nq ng =>
    exact ng.conf.trans ((congrArg Core.conf nq.rest : Core.conf (Core.rest _) = Core.conf (Core.rest _)).trans
      (nb.conf.trans np.conf.1))

theorem OutMsg.conf {env : Env} {c : Core} {l : Lists} {ret : Nat} {m : Out} {to : Addr} {c' : Core} {l' : Lists}
    (n : OutMsg env c l ret m to c' l') : c'.conf = c.conf := by
  cases n with
  | unicast => rfl
  | shutdown _ n1 n2 _ => exact n2.conf.trans n1.conf.1
  | normal _ n1 n2 _ n3 => exact n3.conf.trans (n2.conf.trans n1.conf.1)

/-! ### The answer queues -/

/-- A queue was emptied until a record did not fit. -/
structure Flow (w : W) (s t : OSt) (popped sent : List Nat) : Prop where
  q : s.l.q w = popped ++ t.l.q w
  sub : sent.Sublist popped
  all : s.c.disco = false → sent = popped
  other : ∀ v, v ≠ w → t.l.q v = s.l.q v
  tags : t.m.tags = s.m.tags ++ sent.map fun r => (.an, r)
  ret : t.ret = s.ret + sent.length
  idle : popped = [] → t = s
  stop : t.l.q w = [] ∨ ∃ r rest x, t.l.q w = r :: rest ∧ t.c.recs r = some x ∧ ¬ t.m.len + rrLen x.rr < t.c.frame

theorem tl_q {l : Lists} {w : W} {r : Nat} {rest : List Nat} (h : l.q w = r :: rest) :
    (l.tl w).q w = rest ∧ ∀ v, v ≠ w → (l.tl w).q v = l.q v := by
  unfold Lists.tl Lists.set
  constructor
  · simp [h]
  · intro v hv
    simp [hv]

theorem ROut.flow {w : W} {s t : OSt} (n : ROut w s t) : ∃ popped sent, Flow w s t popped sent := by
  induction n with
  | empty h hq => exact ⟨[], [], hq.trans (by simp [hq]), .slnil, fun _ => rfl, fun _ _ => rfl, by simp, rfl, fun _ => rfl, .inl hq⟩
  | full h hq hx hf => exact ⟨[], [], rfl, .slnil, fun _ => rfl, fun _ _ => rfl, by simp, rfl, fun _ => rfl, .inr ⟨_, _, _, hq, hx, hf⟩⟩
  | @skip s t r rest x h hq hx hf hd n ih =>
    obtain ⟨p, q, f⟩ := ih
    obtain ⟨e1, e2⟩ := tl_q hq
    have f1 : rest = p ++ t.l.q w := e1.symm.trans f.q
    refine ⟨r :: p, q, ?_, f.sub.cons _, fun e => ?_, fun v hv => (f.other v hv).trans (e2 v hv), f.tags, f.ret, by simp, f.stop⟩
    · rw [hq, f1]
      rfl
    · rw [hd.1] at e
      cases e
  | @send s t r rest x h hq hx hf hd ht n ih =>
    obtain ⟨p, q, f⟩ := ih
    obtain ⟨e1, e2⟩ := tl_q hq
    have f1 : rest = p ++ t.l.q w := e1.symm.trans f.q
    refine ⟨r :: p, r :: q, ?_, f.sub.cons_cons _, fun e => ?_, fun v hv => (f.other v hv).trans (e2 v hv), ?_, ?_, by simp, f.stop⟩
    · rw [hq, f1]
      rfl
    · rw [f.all e]
    · rw [f.tags, put_tags]
      simp
    · rw [f.ret]
      simp
      omega
  | @bye s t r rest x h hq hx hf hd ht n ih =>
    obtain ⟨p, q, f⟩ := ih
    obtain ⟨e1, e2⟩ := tl_q hq
    have f1 : rest = p ++ t.l.q w := e1.symm.trans f.q
    refine ⟨r :: p, r :: q, ?_, f.sub.cons_cons _, fun e => ?_, fun v hv => (f.other v hv).trans (e2 v hv), ?_, ?_, by simp, f.stop⟩
    · rw [hq, f1]
      rfl
    · rw [f.all e]
    · rw [f.tags, put_tags]
      simp
    · rw [f.ret]
      simp
      omega

/-! ### Announcements -/

/-- Announcements a record still needs. -/
def Core.retries (c : Core) (r : Nat) : Nat :=
  match c.recs r with
  | some x => 4 - x.tries
  | none => 0

/-- Announcements to be made. -/
def Core.todo (c : Core) (rs : List Nat) : Nat := (rs.map c.retries).sum

theorem Core.todo_append (c : Core) (a b : List Nat) : c.todo (a ++ b) = c.todo a + c.todo b := by
  simp [Core.todo]

theorem Core.todo_cons (c : Core) (r : Nat) (b : List Nat) : c.todo (r :: b) = c.retries r + c.todo b := by
  simp [Core.todo]

theorem Core.todo_congr {c c' : Core} {rs : List Nat} (h : ∀ r ∈ rs, c'.retries r = c.retries r) : c'.todo rs = c.todo rs := by
  unfold Core.todo
  rw [List.map_congr_left h]

theorem Core.retries_other {c c' : Core} {r s : Nat} {x : Option Rec} (e : c'.recs = upd c.recs r x) (h : s ≠ r) :
    c'.retries s = c.retries s := by
  unfold Core.retries
  rw [e, upd_other _ _ _ _ h]

theorem Core.todo_other {c c' : Core} {r : Nat} {x : Option Rec} (e : c'.recs = upd c.recs r x) {rs : List Nat} (h : r ∉ rs) :
    c'.todo rs = c.todo rs :=
  Core.todo_congr fun _ m => Core.retries_other e fun e => h (e ▸ m)

theorem Core.todo_le (c : Core) (rs : List Nat) : c.todo rs ≤ 4 * rs.length := by
  induction rs with
  | nil => exact Nat.le_refl _
  | cons r rs ih =>
    rw [Core.todo_cons, List.length_cons]
    have : c.retries r ≤ 4 := by
      unfold Core.retries
      split <;> omega
    omega

/-- The records to announce were announced until one did not fit. -/
structure PFlow (pre suf : List Nat) (s t : OSt) (sent rest kept : List Nat) : Prop where
  suf : suf = sent ++ rest
  q : t.l.q .publish = pre ++ kept ++ rest
  sub : kept.Sublist sent
  other : ∀ v, v ≠ .publish → t.l.q v = s.l.q v
  tags : t.m.tags = s.m.tags ++ sent.map fun r => (.an, r)
  ret : t.ret = s.ret + sent.length
  idle : sent = [] → t = s
  stop : rest = [] ∨ ∃ r rs x, rest = r :: rs ∧ t.c.recs r = some x ∧ ¬ t.m.len + rrLen x.rr < t.c.frame
  load : t.c.todo (t.l.q .publish) + sent.length ≤ s.c.todo (s.l.q .publish)

theorem unpublish_q {l : Lists} {pre suf : List Nat} {r : Nat} (h : l.q .publish = pre ++ r :: suf) (hn : r ∉ pre) :
    (l.unpublish r).q .publish = pre ++ suf ∧ ∀ v, v ≠ .publish → (l.unpublish r).q v = l.q v := by
  unfold Lists.unpublish Lists.set
  constructor
  · simp only [if_true, h]
    rw [List.erase_append_right _ hn, List.erase_cons_head]
  · intro v hv
    simp [hv]

theorem nodup_split {l pre suf : List Nat} {r : Nat} (h : l.Nodup) (e : l = pre ++ r :: suf) :
    r ∉ pre ∧ r ∉ suf := by
  subst e
  have := List.nodup_append.mp h
  refine ⟨fun m => this.2.2 r m r (by simp) rfl, ?_⟩
  exact (List.nodup_cons.mp this.2.1).1

theorem PubL.flow {pre suf : List Nat} {s t : OSt} (n : PubL pre suf s t) :
    ∃ sent rest kept, PFlow pre suf s t sent rest kept := by
  induction n with
  | done h hq =>
    exact ⟨[], [], [], rfl, by simpa using hq, .slnil, fun _ _ => rfl, by simp, rfl, fun _ => rfl, .inl rfl, Nat.le_refl _⟩
  | full h hq hx hf =>
    exact ⟨[], _, [], rfl, by simpa using hq, .slnil, fun _ _ => rfl, by simp, rfl, fun _ => rfl,
      .inr ⟨_, _, _, rfl, hx, hf⟩, Nat.le_refl _⟩
  | @keep pre suf s t r x h hq hx hf ht h4 n ih =>
    obtain ⟨p, q, k, f⟩ := ih
    obtain ⟨n1, n2⟩ := nodup_split (h.nodup _) hq
    refine ⟨r :: p, q, r :: k, by rw [f.suf]; rfl, by rw [f.q]; simp, f.sub.cons_cons _, f.other, ?_, ?_, by simp, f.stop, ?_⟩
    · rw [f.tags, put_tags]
      simp
    · rw [f.ret]
      simp
      omega
    · have h1 : t.c.todo (t.l.q .publish) + p.length ≤ (s.c.announced r x).todo (s.l.q .publish) := f.load
      have e1 : (s.c.announced r x).todo pre = s.c.todo pre := Core.todo_other rfl n1
      have e2 : (s.c.announced r x).todo suf = s.c.todo suf := Core.todo_other rfl n2
      have e3 : (s.c.announced r x).retries r = 4 - (x.tries + 1) := by
        unfold Core.retries
        rw [show (s.c.announced r x).recs r = _ from upd_same ..]
      have e4 : s.c.retries r = 4 - x.tries := by
        unfold Core.retries
        rw [hx]
      rw [hq, Core.todo_append, Core.todo_cons, e1, e2, e3] at h1
      rw [hq, Core.todo_append, Core.todo_cons, e4, List.length_cons]
      omega
  | @last pre suf s t r x h hq hx hf ht h4 n ih =>
    obtain ⟨p, q, k, f⟩ := ih
    obtain ⟨n1, n2⟩ := nodup_split (h.nodup _) hq
    obtain ⟨u1, u2⟩ := unpublish_q hq n1
    refine ⟨r :: p, q, k, by rw [f.suf]; rfl, f.q, f.sub.cons _, fun v hv => (f.other v hv).trans (u2 v hv), ?_, ?_, by simp, f.stop, ?_⟩
    · rw [f.tags, put_tags]
      simp
    · rw [f.ret]
      simp
      omega
    · have h1 : t.c.todo (t.l.q .publish) + p.length ≤ (s.c.announced r x).todo ((s.l.unpublish r).q .publish) := f.load
      have e1 : (s.c.announced r x).todo pre = s.c.todo pre := Core.todo_other rfl n1
      have e2 : (s.c.announced r x).todo suf = s.c.todo suf := Core.todo_other rfl n2
      have e4 : s.c.retries r = 4 - x.tries := by
        unfold Core.retries
        rw [hx]
      have := h.ptries r x hx (by rw [hq]; simp)
      rw [u1, Core.todo_append, e1, e2] at h1
      rw [hq, Core.todo_append, Core.todo_cons, e4, List.length_cons]
      omega
  | @bye pre suf s t r x h hq hx hf ht n ih =>
    obtain ⟨p, q, k, f⟩ := ih
    obtain ⟨n1, n2⟩ := nodup_split (h.nodup _) hq
    obtain ⟨u1, u2⟩ := unpublish_q hq n1
    refine ⟨r :: p, q, k, by rw [f.suf]; rfl, f.q, f.sub.cons _, fun v hv => (f.other v hv).trans (u2 v hv), ?_, ?_, by simp, f.stop, ?_⟩
    · rw [f.tags, put_tags]
      simp
    · rw [f.ret]
      simp
      omega
    · have h1 : t.c.todo (t.l.q .publish) + p.length ≤ (s.c.dropRec r x).todo ((s.l.unpublish r).q .publish) := f.load
      have e1 : (s.c.dropRec r x).todo pre = s.c.todo pre := Core.todo_other rfl n1
      have e2 : (s.c.dropRec r x).todo suf = s.c.todo suf := Core.todo_other rfl n2
      have e4 : s.c.retries r = 4 - x.tries := by
        unfold Core.retries
        rw [hx]
      have := h.ptries r x hx (by rw [hq]; simp)
      rw [u1, Core.todo_append, e1, e2] at h1
      rw [hq, Core.todo_append, Core.todo_cons, e4, List.length_cons]
      omega

/-- The announcements to be made do not depend on what `_r_out` changes. -/
theorem ROut.todo {w : W} (hw : w ≠ .publish) {s t : OSt} (n : ROut w s t) :
    t.c.todo (t.l.q .publish) = s.c.todo (s.l.q .publish) := by
  have key : ∀ {s : OSt} {r : Nat} {rest : List Nat} {x : Option Rec} {c : Core}, RInv s.c s.l → s.l.q w = r :: rest →
      c.recs = upd s.c.recs r x → c.todo ((s.l.tl w).q .publish) = s.c.todo (s.l.q .publish) := by
    intro s r rest x c h hq e
    rw [(tl_q hq).2 _ (Ne.symm hw)]
    refine Core.todo_other e fun m => hw (h.disj _ _ _ (by rw [hq]; simp) m)
  induction n with
  | empty => rfl
  | full => rfl
  | skip h hq hx hf hd n ih => exact ih.trans (by simp [(tl_q hq).2 _ (Ne.symm hw)])
  | send h hq hx hf hd ht n ih => exact ih.trans (key h hq rfl)
  | bye h hq hx hf hd ht n ih => exact ih.trans (key h hq rfl)

end Mdns
