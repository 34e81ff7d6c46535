import Verif.Lemmas.Timers
import Verif.Spec.Packet

/-!
# The entries of packets and the records they are made from
-/

namespace Mdns

/-! ### Entries -/

/-- Nothing, or calls that begin with a new question or entry. -/
def Headed (b : List MOp) : Prop := ∀ o ∈ b.head?, o.isData = false

theorem takeWhile_headed (a : List MOp) {b : List MOp} (h : Headed b) :
    (a ++ b).takeWhile MOp.isData = a.takeWhile MOp.isData := by
  induction a with
  | nil =>
    cases b with
    | nil => rfl
    | cons o b =>
      have := h o (by simp)
      simp [this]
  | cons o a ih =>
    rw [List.cons_append, List.takeWhile_cons, List.takeWhile_cons, ih]

theorem entries_append (a : List MOp) {b : List MOp} (h : Headed b) : entries (a ++ b) = entries a ++ entries b := by
  induction a with
  | nil => rfl
  | cons o a ih =>
    cases o with
    | b o =>
      cases o with
      | rr s n t c ttl =>
        show entries (.b (.rr s n t c ttl) :: (a ++ b)) = _
        simp only [entries, ih, takeWhile_headed a h, List.cons_append]
      | _ => exact ih
    | srvNull => exact ih

theorem questions_append (a b : List MOp) : questions (a ++ b) = questions a ++ questions b := by
  induction a with
  | nil => rfl
  | cons o a ih =>
    cases o with
    | b o =>
      cases o with
      | qd n t c =>
        show questions (.b (.qd n t c) :: (a ++ b)) = _
        simp only [questions, ih, List.cons_append]
      | _ => exact ih
    | srvNull => exact ih

theorem aCopy_data (a : Answer) : ∀ o ∈ aCopy a, o.isData = true := by
  intro o m
  unfold aCopy at m
  split at m
  · split at m <;> (rw [List.mem_singleton] at m; subst m; rfl)
  · split at m
    · rw [List.mem_singleton] at m; subst m; rfl
    · rw [List.mem_singleton] at m; subst m; rfl
    · split at m
      · rw [List.mem_singleton] at m; subst m; rfl
      · split at m
        · rw [List.mem_singleton] at m; subst m; rfl
        · cases m

theorem entries_data {l : List MOp} (h : ∀ o ∈ l, o.isData = true) : entries l = [] := by
  induction l with
  | nil => rfl
  | cons o l ih =>
    have h1 := h o (by simp)
    have h2 := ih fun o m => h o (by simp [m])
    cases o with
    | b o =>
      cases o with
      | rr s n t c ttl => cases h1
      | _ => exact h2
    | srvNull => exact h2

theorem questions_data {l : List MOp} (h : ∀ o ∈ l, o.isData = true) : questions l = [] := by
  induction l with
  | nil => rfl
  | cons o l ih =>
    have h1 := h o (by simp)
    have h2 := ih fun o m => h o (by simp [m])
    cases o with
    | b o =>
      cases o with
      | qd n t c => cases h1
      | _ => exact h2
    | srvNull => exact h2

theorem takeWhile_all {l : List MOp} (h : ∀ o ∈ l, o.isData = true) : l.takeWhile MOp.isData = l := by
  induction l with
  | nil => rfl
  | cons o l ih =>
    rw [List.takeWhile_cons, h o (by simp), if_pos rfl, ih fun o m => h o (by simp [m])]

theorem entries_rr (s : Section) (n : Bytes) (t cls ttl : Nat) (a : Answer) :
    entries (.b (.rr s n t cls ttl) :: aCopy a) = [⟨s, n, t, cls, ttl, aCopy a⟩] := by
  simp only [entries, takeWhile_all (aCopy_data a), entries_data (aCopy_data a)]

theorem entries_rrOps (s : Section) (a : Answer) (cls : Nat) :
    entries (rrOps s a cls) = [⟨s, a.name, a.type, cls, a.ttl, aCopy a⟩] := entries_rr ..

theorem headed_rrOps (s : Section) (a : Answer) (cls : Nat) : Headed (rrOps s a cls) := by
  intro o m
  cases m
  rfl

/-! ### Entries made from records -/

/-- The entry of a record in a section; the flush bit goes with unique records in answers to
everyone and in the additional section. -/
def Core.entry (c : Core) (multi : Bool) (t : Section × Nat) : PEntry :=
  match c.recs t.2 with
  | some x => ⟨t.1, x.rr.name, x.rr.type,
      if t.1 = .ar ∨ (t.1 = .an ∧ multi = true) then x.cls c.cls else c.cls, x.rr.ttl, aCopy x.rr⟩
  | none => ⟨t.1, [], 0, 0, 0, []⟩

/-- The records that are left have the data they had at the beginning. -/
def Kept (c0 c : Core) : Prop := c.cls = c0.cls ∧
  ∀ r x, c.recs r = some x → ∃ x0, c0.recs r = some x0 ∧ x.rr = x0.rr ∧ (x.unique = 0 ↔ x0.unique = 0)

theorem Kept.refl (c : Core) : Kept c c := ⟨rfl, fun _ x h => ⟨x, h, rfl, Iff.rfl⟩⟩

theorem Kept.congr {c0 c c' : Core} (h : Kept c0 c) (e : c'.recs = c.recs) (e' : c'.cls = c.cls) : Kept c0 c' :=
  ⟨e'.trans h.1, fun r x hx => h.2 r x (e ▸ hx)⟩

theorem Kept.set {c0 c c' : Core} (h : Kept c0 c) {r : Nat} {x y : Rec} (hx : c.recs r = some x)
    (e : c'.recs = upd c.recs r (some y)) (e' : c'.cls = c.cls) (hr : y.rr = x.rr) (hu : y.unique = 0 ↔ x.unique = 0) :
    Kept c0 c' := by
  refine ⟨e'.trans h.1, fun s z hz => ?_⟩
  rw [e] at hz
  by_cases es : s = r
  · subst es
    rw [upd_same] at hz
    cases hz
    obtain ⟨x0, h1, h2, h3⟩ := h.2 s x hx
    exact ⟨x0, h1, hr.trans h2, hu.trans h3⟩
  · rw [upd_other _ _ _ _ es] at hz
    exact h.2 s z hz

theorem Kept.drop {c0 c c' : Core} (h : Kept c0 c) {r : Nat} (e : c'.recs = upd c.recs r none) (e' : c'.cls = c.cls) :
    Kept c0 c' := by
  refine ⟨e'.trans h.1, fun s z hz => ?_⟩
  rw [e] at hz
  by_cases es : s = r
  · subst es
    rw [upd_same] at hz
    cases hz
  · rw [upd_other _ _ _ _ es] at hz
    exact h.2 s z hz

/-- The entries of a message are those of the records in its tags. -/
def Made (c0 : Core) (multi : Bool) (m : Out) : Prop :=
  entries m.ops = m.tags.map (c0.entry multi) ∧ ∀ t ∈ m.tags, ∃ x, c0.recs t.2 = some x

theorem Made.start (c0 : Core) (multi : Bool) (id : Nat) : Made c0 multi { id := id } := ⟨rfl, by simp⟩

theorem Made.put {c0 c : Core} {multi : Bool} {m : Out} (h : Made c0 multi m) (k : Kept c0 c) {r : Nat} {x : Rec}
    (hx : c.recs r = some x) {s : Section} {cls : Nat}
    (hc : cls = if s = .ar ∨ (s = .an ∧ multi = true) then x.cls c.cls else c.cls) : Made c0 multi (m.put s r x.rr cls) := by
  obtain ⟨x0, h1, h2, h3⟩ := k.2 r x hx
  refine ⟨?_, fun t mt => ?_⟩
  rotate_left
  · rcases List.mem_append.mp (show t ∈ m.tags ++ [(s, r)] from mt) with mt | mt
    · exact h.2 t mt
    · rw [List.mem_singleton] at mt
      subst mt
      exact ⟨x0, h1⟩
  show entries (m.ops ++ rrOps s x.rr cls) = (m.tags ++ [(s, r)]).map _
  rw [entries_append _ (headed_rrOps _ _ _), entries_rrOps, h.1, List.map_append]
  congr 1
  have e : x.cls c.cls = x0.cls c0.cls := by
    unfold Rec.cls
    rw [k.1]
    by_cases hu : x.unique = 0
    · rw [if_neg (by simp [hu]), if_neg (by simp [h3.mp hu])]
    · rw [if_pos hu, if_pos (fun h => hu (h3.mpr h))]
  rw [List.map_singleton]
  unfold Core.entry
  rw [h1]
  simp only
  rw [hc, h2, e, k.1]

theorem Made.qd {c0 : Core} {multi : Bool} {m : Out} (h : Made c0 multi m) (n : Bytes) (t cls : Nat) :
    Made c0 multi (m.add [.b (.qd n t cls)]) := by
  refine ⟨?_, h.2⟩
  show entries (m.ops ++ _) = m.tags.map _
  rw [entries_append _ (by intro o m; cases m; rfl), h.1]
  simp [entries]

/-- Records and message agree with the beginning of the call. -/
structure OMade (c0 : Core) (s : OSt) : Prop where
  kept : Kept c0 s.c
  made : Made c0 true s.m

theorem ROut.made {c0 : Core} {w : W} {s t : OSt} (n : ROut w s t) (h : OMade c0 s) : OMade c0 t := by
  induction n with
  | empty => exact h
  | full => exact h
  | skip _ _ _ _ _ _ ih => exact ih ⟨h.kept, h.made⟩
  | send _ _ hx _ _ _ _ ih => exact ih ⟨h.kept.set hx rfl rfl rfl Iff.rfl, h.made.put h.kept hx (by simp)⟩
  | bye _ _ hx _ _ _ _ ih => exact ih ⟨h.kept.drop rfl rfl, h.made.put h.kept hx (by simp)⟩

theorem PubL.made {c0 : Core} {pre suf : List Nat} {s t : OSt} (n : PubL pre suf s t) (h : OMade c0 s) : OMade c0 t := by
  induction n with
  | done => exact h
  | full => exact h
  | keep _ _ hx _ _ _ _ ih => exact ih ⟨h.kept.set hx rfl rfl rfl Iff.rfl, h.made.put h.kept hx (by simp)⟩
  | last _ _ hx _ _ _ _ ih => exact ih ⟨h.kept.set hx rfl rfl rfl Iff.rfl, h.made.put h.kept hx (by simp)⟩
  | bye _ _ hx _ _ _ ih => exact ih ⟨h.kept.drop rfl rfl, h.made.put h.kept hx (by simp)⟩

theorem ProbeA.made {c0 : Core} {pre suf : List Nat} {s t : OSt} (n : ProbeA pre suf s t) (h : OMade c0 s) : OMade c0 t := by
  induction n with
  | done => exact h
  | verified _ _ hx hu _ ih => exact ih ⟨h.kept.set hx rfl rfl rfl (by simp [hu]), h.made⟩
  | ask _ _ hx _ _ ih => exact ih ⟨h.kept.set hx rfl rfl rfl Iff.rfl, h.made.qd _ _ _⟩

theorem ProbeB.made {c0 : Core} {pre suf : List Nat} {s t : OSt} (n : ProbeB pre suf s t) (h : OMade c0 s) : OMade c0 t := by
  induction n with
  | done => exact h
  | propose _ _ hx hu _ ih => exact ih ⟨h.kept.set hx rfl rfl rfl (by simp [hu.1]), h.made.put h.kept hx (by simp)⟩

theorem OMade.core {c0 : Core} {s : OSt} (h : OMade c0 s) {c : Core} (e : c.recs = s.c.recs) (e' : c.cls = s.c.cls) :
    OMade c0 { s with c := c } := ⟨h.kept.congr e e', h.made⟩

theorem PubOpt.made {c0 : Core} {s t : OSt} (n : PubOpt s t) (h : OMade c0 s) : OMade c0 t := by
  cases n with
  | no => exact h
  | yes _ _ _ n => exact (n.made h).core (by split <;> rfl) (by split <;> rfl)

theorem PauseOpt.made {c0 : Core} {s t : OSt} (n : PauseOpt s t) (h : OMade c0 s) : OMade c0 t := by
  cases n with
  | no => exact h
  | yes _ _ n => exact n.made h

theorem ProbeOpt.made {c0 : Core} {s t : OSt} (n : ProbeOpt s t) (h : OMade c0 s) : OMade c0 t := by
  cases n with
  | no => exact h
  | yes _ _ n n' => exact (n'.made (n.made h)).core (by split <;> rfl) (by split <;> rfl)

theorem AddL.made {c0 c : Core} {multi : Bool} {J : Nat → Prop} {m m' : Out} {s s' : List Nat} (n : AddL c J m s m' s')
    (k : Kept c0 c) (h : Made c0 multi m) : Made c0 multi m' := by
  induction n with
  | nil => exact h
  | add _ _ hx _ _ ih => exact ih.put k hx (by simp)

/-! ### Shape -/

/-- Nothing in the packet yet, or only answers. -/
structure Answering (s : OSt) : Prop where
  tags : ∀ t ∈ s.m.tags, t.1 = .an
  ret : s.ret = s.m.tags.length
  seen : s.seen.length ≤ s.ret
  noq : questions s.m.ops = []

theorem answeredAdd_length (seen : List Nat) (r : Nat) : (answeredAdd seen r).length ≤ seen.length + 1 := by
  unfold answeredAdd
  split <;> simp

theorem questions_rrOps (s : Section) (a : Answer) (cls : Nat) : questions (rrOps s a cls) = [] := by
  show questions (aCopy a) = []
  exact questions_data (aCopy_data a)

theorem questions_put (m : Out) (s : Section) (r : Nat) (a : Answer) (cls : Nat) :
    questions (m.put s r a cls).ops = questions m.ops := by
  show questions (m.ops ++ rrOps s a cls) = _
  rw [questions_append, questions_rrOps, List.append_nil]

theorem Answering.put {s : OSt} (h : Answering s) {r : Nat} {a : Answer} {cls : Nat} {c : Core} {l : Lists}
    {seen : List Nat} (hs : seen.length ≤ s.seen.length + 1) :
    Answering ⟨c, l, s.m.put .an r a cls, seen, s.ret + 1⟩ := by
  refine ⟨?_, ?_, ?_, ?_⟩
  · intro t m
    rw [put_tags] at m
    rcases List.mem_append.mp m with m | m
    · exact h.tags t m
    · rw [List.mem_singleton.mp m]
  · show s.ret + 1 = _
    rw [put_tags, List.length_append, ← h.ret]
    rfl
  · exact Nat.le_trans hs (Nat.succ_le_succ h.seen)
  · exact (questions_put ..).trans h.noq

theorem ROut.answering {w : W} {s t : OSt} (n : ROut w s t) (h : Answering s) : Answering t := by
  induction n with
  | empty => exact h
  | full => exact h
  | skip _ _ _ _ _ _ ih => exact ih ⟨h.tags, h.ret, h.seen, h.noq⟩
  | send _ _ _ _ _ _ _ ih => exact ih (h.put (answeredAdd_length _ _))
  | bye _ _ _ _ _ _ _ ih => exact ih (h.put (Nat.le_succ _))

theorem PubL.answering {pre suf : List Nat} {s t : OSt} (n : PubL pre suf s t) (h : Answering s) : Answering t := by
  induction n with
  | done => exact h
  | full => exact h
  | keep _ _ _ _ _ _ _ ih => exact ih (h.put (answeredAdd_length _ _))
  | last _ _ _ _ _ _ _ ih => exact ih (h.put (answeredAdd_length _ _))
  | bye _ _ _ _ _ _ ih => exact ih (h.put (Nat.le_succ _))

theorem PubOpt.answering {s t : OSt} (n : PubOpt s t) (h : Answering s) : Answering t := by
  cases n with
  | no => exact h
  | yes _ _ _ n =>
    have := n.answering h
    exact ⟨this.tags, this.ret, this.seen, this.noq⟩

theorem PauseOpt.answering {s t : OSt} (n : PauseOpt s t) (h : Answering s) : Answering t := by
  cases n with
  | no => exact h
  | yes _ _ n => exact n.answering h

theorem Answering.start (c : Core) (l : Lists) : Answering ⟨c, l, {}, [], 0⟩ :=
  ⟨by simp, rfl, Nat.le_refl _, rfl⟩

/-- A message to which nothing was added. -/
theorem Answering.empty {s : OSt} (h : Answering s) (hr : s.ret = 0) : s.m.tags = [] ∧ s.seen = [] :=
  ⟨List.eq_nil_of_length_eq_zero (h.ret.symm.trans hr), List.eq_nil_of_length_eq_zero (by have := h.seen; omega)⟩

theorem AddL.none {c : Core} {m m' : Out} {s' : List Nat} (n : AddL c (fun r => ∃ r0 ∈ ([] : List Nat), Extra c r0 r) m [] m' s') :
    m' = m := by
  cases n with
  | nil => rfl
  | add _ _ _ _ j => obtain ⟨_, m, _⟩ := j; cases m

theorem AddL.tags {c : Core} {J : Nat → Prop} {m m' : Out} {s s' : List Nat} (n : AddL c J m s m' s') :
    ∃ rs : List Nat, m'.tags = m.tags ++ rs.map fun r => (.ar, r) := by
  induction n with
  | nil => exact ⟨[], by simp⟩
  | add _ _ _ _ _ ih =>
    obtain ⟨rs, e⟩ := ih
    rename_i r _ _ _ _ _ _
    exact ⟨rs ++ [r], by rw [put_tags, e]; simp⟩

theorem ProbeA.tags {pre suf : List Nat} {s t : OSt} (n : ProbeA pre suf s t) : t.m.tags = s.m.tags ∧ t.ret = s.ret := by
  induction n with
  | done => exact ⟨rfl, rfl⟩
  | verified _ _ _ _ _ ih => exact ih
  | ask _ _ _ _ _ ih => exact ih

theorem ProbeB.tags {pre suf : List Nat} {s t : OSt} (n : ProbeB pre suf s t) :
    t.m.tags = s.m.tags ++ suf.map (fun r => (.ns, r)) ∧ t.ret = s.ret + suf.length := by
  induction n with
  | done => simp
  | @propose pre suf s t r x _ _ _ _ n ih =>
    obtain ⟨e1, e2⟩ := ih
    refine ⟨?_, ?_⟩
    · rw [e1]
      show (s.m.put .ns r x.rr s.c.cls).tags ++ _ = _
      rw [put_tags]
      simp
    · rw [e2]
      show s.ret + 1 + _ = _
      simp
      omega

theorem ProbeOpt.tags {s t : OSt} (n : ProbeOpt s t) : ∃ rs : List Nat, rs.Nodup ∧
    t.m.tags = s.m.tags ++ rs.map (fun r => (.ns, r)) ∧ t.ret = s.ret + rs.length := by
  cases n with
  | no => exact ⟨[], by simp, by simp, rfl⟩
  | @yes u t _ _ n n' =>
    have h1 := n.tags
    have h2 := n'.tags
    refine ⟨u.l.q .probing, n.inv.nodup _, ?_, ?_⟩
    · show t.m.tags = _
      rw [h2.1, h1.1]
    · show t.ret = _
      rw [h2.2, h1.2]

/-- The three kinds of packets. -/
inductive Kind (c0 : Core) (ret : Nat) (m : Out) (to : Addr) : Prop
  /-- answers for everyone -/
  | answers (as xs : List Nat) (ht : m.tags = as.map (fun r => (.an, r)) ++ xs.map (fun r => (.ar, r))) (ha : as ≠ [])
      (hr : ret = as.length) (hm : Made c0 true m) (hq : questions m.ops = []) (hto : to = mcast c0.family)
  /-- probes -/
  | probes (rs : List Nat) (hn : rs.Nodup) (ht : m.tags = rs.map (fun r => (.ns, r))) (hr : rs ≠ [])
      (hr : ret = rs.length) (hm : Made c0 true m) (hto : to = mcast c0.family)
  /-- questions with known answers, or nothing -/
  | questions (ht : m.tags = []) (hto : to = mcast c0.family)
  /-- an answer for one host -/
  | unicast (u : Unicast) (us : List Unicast) (xs : List Nat) (hu : c0.uanswers = u :: us)
      (ht : m.tags = (.an, u.r) :: xs.map (fun r => (.ar, r))) (hr : ret = 1) (hm : Made c0 false m) (hto : to = u.to)
      (hid : m.id = u.id)

theorem Answering.split {s : OSt} (h : Answering s) : ∃ as : List Nat, s.m.tags = as.map fun r => (.an, r) := by
  refine ⟨s.m.tags.map (·.2), ?_⟩
  rw [List.map_map]
  refine (List.map_id _).symm.trans (List.map_congr_left fun t m => ?_)
  have := h.tags t m
  obtain ⟨a, b⟩ := t
  simp only at this
  subst this
  rfl

theorem AddL.id {c : Core} {J : Nat → Prop} {m m' : Out} {s s' : List Nat} (n : AddL c J m s m' s') : m'.id = m.id := by
  induction n with
  | nil => rfl
  | add _ _ _ _ _ ih => exact ih

theorem AddL.questions {c : Core} {J : Nat → Prop} {m m' : Out} {s s' : List Nat} (n : AddL c J m s m' s') :
    questions m'.ops = questions m.ops := by
  induction n with
  | nil => rfl
  | add _ _ _ _ _ ih => rw [questions_put, ih]

theorem OutMsg.kind {env : Env} {c : Core} {l : Lists} {ret : Nat} {m : Out} {to : Addr} {c' : Core} {l' : Lists}
    (n : OutMsg env c l ret m to c' l') : Kind c ret m to := by
  cases n with
  | @unicast u us x _ seen hu hx na =>
    obtain ⟨xs, e⟩ := na.tags
    refine .unicast u us xs hu (by rw [e, put_tags]; rfl) rfl ?_ rfl na.id
    refine na.made (c0 := c) ((Kept.refl c).set hx rfl rfl rfl Iff.rfl) ?_
    exact Made.put (c := c) (Made.qd (.start ..) _ _ _) (Kept.refl c) hx (by simp)
  | @shutdown s1 s2 hu n1 n2 _ =>
    have a := n2.answering (n1.answering (.start c l))
    obtain ⟨as, e⟩ := a.split
    cases has : as with
    | nil => exact .questions (by rw [e, has]; rfl) rfl
    | cons r rs =>
      refine .answers as [] (by rw [e]; simp) (by rw [has]; simp) ?_ ?_ a.noq rfl
      · rw [a.ret, e, List.length_map]
      · exact (n2.made (n1.made ⟨Kept.refl c, .start ..⟩)).made
  | @normal s1 s2 _ _ _ _ hu n1 n2 _ n3 =>
    have a := n2.answering (n1.answering (.start c l))
    have hm := n2.made (n1.made (c0 := c) ⟨Kept.refl c, .start ..⟩)
    cases n3 with
    | @answers s3 _ _ np na hr =>
      have a := np.answering a
      have hm := np.made hm
      obtain ⟨as, e⟩ := a.split
      obtain ⟨xs, e'⟩ := na.tags
      refine .answers as xs (by rw [e', e]) ?_ ?_ (na.made hm.kept hm.made) ?_ rfl
      · rintro rfl
        have := a.ret
        rw [e] at this
        exact hr this
      · rw [a.ret, e, List.length_map]
      · rw [na.questions, a.noq]
    | @probes s3 s4 m0 seen np na hr nb hr2 =>
      have a := np.answering a
      have hm := np.made hm
      obtain ⟨e1, e2⟩ := a.empty hr
      rw [e2] at na
      have := na.none
      subst this
      obtain ⟨rs, hn, e, er⟩ := nb.tags
      have e : s4.m.tags = s3.m.tags ++ rs.map fun r => (.ns, r) := e
      have er : s4.ret = s3.ret + rs.length := er
      have hm : OMade c { s3 with m := { s3.m with qr := false, aa := false } } := ⟨hm.kept, hm.made⟩
      have hm := nb.made hm
      rw [e1] at e
      refine .probes rs hn (by simpa using e) ?_ (by omega) hm.made rfl
      rintro rfl
      rw [hr] at er
      exact hr2 er
    | @questions s3 s4 m0 seen _ _ _ _ np na hr nb hr2 nq ng =>
      have a := np.answering a
      obtain ⟨e1, e2⟩ := a.empty hr
      rw [e2] at na
      have := na.none
      subst this
      obtain ⟨rs, hn, e, er⟩ := nb.tags
      have e : s4.m.tags = s3.m.tags ++ rs.map fun r => (.ns, r) := e
      have er : s4.ret = s3.ret + rs.length := er
      have : rs = [] := List.eq_nil_of_length_eq_zero (by omega)
      subst this
      exact .questions (by rw [nq.tags, e, e1]; rfl) rfl

end Mdns
