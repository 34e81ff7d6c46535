import Verif.Lemmas.Records

/-!
# What `mdnsd_out` does with the record queues

Each loop is described by a relation listing its steps, and is shown to end normally with a
result related that way.
-/

namespace Mdns

open M

/-- State of the loops of `mdnsd_out`: daemon, queues, message, records answered, count. -/
structure OSt where
  c : Core
  l : Lists
  m : Out
  seen : List Nat
  ret : Nat

/-- A record that was put in a packet by `_r_out`. -/
def Core.sentRec (c : Core) (r : Nat) (x : Rec) : Core :=
  { c with recs := upd c.recs r (some { x with lastSent := c.now, modified := false }) }

theorem RInv.sentRec {c : Core} {l : Lists} (h : RInv c l) {r : Nat} {x : Rec} (hx : c.recs r = some x) :
    RInv (c.sentRec r x) l :=
  h.setRec hx rfl rfl (h.conf r x hx) (h.tries r x hx) (h.ptries r x hx)

theorem erase_absent {l : List Nat} {r : Nat} (h : r ∉ l) : l.erase r = l := List.erase_of_not_mem h

theorem tl_not_mem {c : Core} {l : Lists} (h : RInv c l) {w : W} {r : Nat} {rest : List Nat} (hq : l.q w = r :: rest)
    (v : W) : r ∉ (l.tl w).q v := fun m => ((mem_tl h hq).mp m).1 rfl

theorem RInv.dropTl {c : Core} {l : Lists} (h : RInv c l) {w : W} {r : Nat} {rest : List Nat} {x : Rec}
    (hq : l.q w = r :: rest) (hx : c.recs r = some x) : RInv (c.dropRec r x) ((l.tl w).dead r) := by
  refine h.drop hx rfl (fun s e => ?_) ?_ ?_ ?_
  · simp only [Lists.dead, Lists.tl, Lists.set, if_neg e]
  · simp only [Lists.dead, if_true]
  · intro v
    simp only [Lists.dead, Lists.tl, Lists.set]
    split
    · exact (h.nodup w).sublist (List.tail_sublist _)
    · exact h.nodup v
  · intro v s
    exact mem_tl h hq

/-- The steps of `_r_out` on the queue `w`. -/
inductive ROut (w : W) : OSt → OSt → Prop
  /-- the queue is empty -/
  | empty {s : OSt} (h : RInv s.c s.l) (hq : s.l.q w = []) : ROut w s s
  /-- the first record does not fit -/
  | full {s : OSt} {r : Nat} {rest : List Nat} {x : Rec} (h : RInv s.c s.l) (hq : s.l.q w = r :: rest)
      (hx : s.c.recs r = some x) (hf : ¬ s.m.len + rrLen x.rr < s.c.frame) : ROut w s s
  /-- a record left out of an answer to a discovery query -/
  | skip {s t : OSt} {r : Nat} {rest : List Nat} {x : Rec} (h : RInv s.c s.l) (hq : s.l.q w = r :: rest)
      (hx : s.c.recs r = some x) (hf : s.m.len + rrLen x.rr < s.c.frame)
      (hd : s.c.disco = true ∧ (x.rr.type ≠ 12 ∨ x.rr.name ≠ discoName))
      (n : ROut w { s with l := s.l.tl w } t) : ROut w s t
  /-- a record sent -/
  | send {s t : OSt} {r : Nat} {rest : List Nat} {x : Rec} (h : RInv s.c s.l) (hq : s.l.q w = r :: rest)
      (hx : s.c.recs r = some x) (hf : s.m.len + rrLen x.rr < s.c.frame)
      (hd : ¬ (s.c.disco = true ∧ (x.rr.type ≠ 12 ∨ x.rr.name ≠ discoName))) (ht : x.rr.ttl ≠ 0)
      (n : ROut w ⟨s.c.sentRec r x, s.l.tl w, s.m.put .an r x.rr (x.cls s.c.cls), answeredAdd s.seen r, s.ret + 1⟩ t) :
      ROut w s t
  /-- a goodbye sent, the record freed -/
  | bye {s t : OSt} {r : Nat} {rest : List Nat} {x : Rec} (h : RInv s.c s.l) (hq : s.l.q w = r :: rest)
      (hx : s.c.recs r = some x) (hf : s.m.len + rrLen x.rr < s.c.frame)
      (hd : ¬ (s.c.disco = true ∧ (x.rr.type ≠ 12 ∨ x.rr.name ≠ discoName))) (ht : x.rr.ttl = 0)
      (n : ROut w ⟨s.c.dropRec r x, (s.l.tl w).dead r, s.m.put .an r x.rr (x.cls s.c.cls), s.seen, s.ret + 1⟩ t) :
      ROut w s t

theorem ROut.inv {w : W} {s t : OSt} (n : ROut w s t) : RInv t.c t.l := by
  induction n with
  | empty h => exact h
  | full h => exact h
  | skip _ _ _ _ _ _ ih => exact ih
  | send _ _ _ _ _ _ _ ih => exact ih
  | bye _ _ _ _ _ _ _ ih => exact ih

theorem pop_ok {c : Core} {l : Lists} {w : W} {r : Nat} {rest : List Nat} (hq : l.q w = r :: rest) :
    (liftQ fun q => (QOps.pop w q).bind fun q => .ok ((), q) : M Lists Unit) ⟨c, l⟩ = .ok ((), ⟨c, l.tl w⟩) := by
  unfold liftQ Lists.tl
  simp only [QOps.pop, hq, Res.bind, List.tail_cons]

theorem removeAbsent_ok {c : Core} {l : Lists} {r : Nat} (hq : ∀ v, r ∉ l.q v) {skip : Option W} :
    (rRemoveLists r skip) ⟨c, l⟩ = .ok ((), ⟨c, l⟩) := by
  rw [rRemoveLists_ok]
  have : (fun w => if skip = some w then l.q w else (l.q w).erase r) = l.q := by
    funext v
    split
    · rfl
    · exact erase_absent (hq v)
  rw [this]

theorem dropRec_sentRec (c : Core) (r : Nat) (x : Rec) :
    (c.sentRec r x).dropRec r { x with lastSent := c.now, modified := false } = c.dropRec r x := by
  unfold Core.sentRec Core.dropRec
  simp only [upd_upd]

theorem rOut_ok {w : W} (hw : w ≠ .probing) : ∀ (fuel : Nat) (s : OSt), RInv s.c s.l → (s.l.q w).length ≤ fuel →
    ∃ t, rOut w fuel s.m s.seen s.ret ⟨s.c, s.l⟩ = .ok ((t.m, t.seen, t.ret), ⟨t.c, t.l⟩) ∧ ROut w s t
  | fuel, s, h, hf => by
    unfold rOut
    rw [M.bind_ok qHead_ok]
    cases hq : s.l.q w with
    | nil => exact ⟨s, rfl, .empty h hq⟩
    | cons r rest =>
      rw [hq] at hf
      obtain ⟨x, hx⟩ := h.qrec (show r ∈ s.l.q w by rw [hq]; simp)
      have hl : s.l.live r = true := by rw [h.live, hx]; rfl
      have hlen : ((s.l.tl w).q w).length = rest.length := by
        unfold Lists.tl Lists.set
        simp only [if_true, hq, List.tail_cons]
      match fuel, hf with
      | fuel + 1, hf =>
        have hf : rest.length ≤ fuel := by simpa using hf
        simp only [List.head?_cons]
        rw [M.bind_ok (getRec_ok hx), M.bind_ok core_ok]
        by_cases fit : s.m.len + rrLen x.rr < s.c.frame
        · rw [if_neg (by simpa using fit), M.bind_ok (pop_ok hq)]
          by_cases disco : s.c.disco = true ∧ (x.rr.type ≠ 12 ∨ x.rr.name ≠ discoName)
          · rw [if_pos disco]
            obtain ⟨t, e, n⟩ := rOut_ok hw fuel { s with l := s.l.tl w } (h.tl hw) (by rw [hlen]; exact hf)
            exact ⟨t, e, .skip h hq hx fit disco n⟩
          · rw [if_neg disco]
            rw [M.bind_ok (modRec_ok hx)]
            by_cases ttl : x.rr.ttl = 0
            · rw [if_pos ttl]
              have hx' : (s.c.sentRec r x).recs r = some { x with lastSent := s.c.now, modified := false } := upd_same ..
              obtain ⟨t, e, n⟩ := rOut_ok hw fuel
                ⟨s.c.dropRec r x, (s.l.tl w).dead r, s.m.put .an r x.rr (x.cls s.c.cls), s.seen, s.ret + 1⟩
                (h.dropTl hq hx) (show ((s.l.tl w).q w).length ≤ fuel by rw [hlen]; exact hf)
              refine ⟨t, ?_, .bye h hq hx fit disco ttl n⟩
              have e1 : rRemoveLists r (some w) ⟨s.c.sentRec r x, s.l.tl w⟩ = .ok ((), ⟨s.c.sentRec r x, s.l.tl w⟩) :=
                removeAbsent_ok (tl_not_mem h hq)
              have e2 : rDone r ⟨s.c.sentRec r x, s.l.tl w⟩ = .ok ((), ⟨s.c.dropRec r x, (s.l.tl w).dead r⟩) := by
                rw [rDone_ok (l := s.l.tl w) hx' hl (tl_not_mem h hq), dropRec_sentRec]
              exact (M.bind_ok e1).trans ((M.bind_ok e2).trans e)
            · rw [if_neg ttl]
              obtain ⟨t, e, n⟩ := rOut_ok hw fuel
                ⟨s.c.sentRec r x, s.l.tl w, s.m.put .an r x.rr (x.cls s.c.cls), answeredAdd s.seen r, s.ret + 1⟩
                ((h.sentRec hx).tl hw) (show ((s.l.tl w).q w).length ≤ fuel by rw [hlen]; exact hf)
              exact ⟨t, e, .send h hq hx fit disco ttl n⟩
        · rw [if_pos (by simpa using fit)]
          exact ⟨s, rfl, .full h hq hx fit⟩

/-! ### Announcements -/

/-- A record that was announced. -/
def Core.announced (c : Core) (r : Nat) (x : Rec) : Core :=
  { c with recs := upd c.recs r (some { x with tries := x.tries + 1, lastSent := c.now }) }

/-- Without a record in the publish queue. -/
def Lists.unpublish (l : Lists) (r : Nat) : Lists := l.set .publish ((l.q .publish).erase r)

/-- The steps of the publish loop; `pre` are the records already handled and still queued. -/
inductive PubL : List Nat → List Nat → OSt → OSt → Prop
  | done {pre : List Nat} {s : OSt} (h : RInv s.c s.l) (hq : s.l.q .publish = pre ++ []) : PubL pre [] s s
  /-- the record does not fit -/
  | full {pre suf : List Nat} {s : OSt} {r : Nat} {x : Rec} (h : RInv s.c s.l) (hq : s.l.q .publish = pre ++ r :: suf)
      (hx : s.c.recs r = some x) (hf : ¬ s.m.len + rrLen x.rr < s.c.frame) : PubL pre (r :: suf) s s
  /-- announced, more announcements to come -/
  | keep {pre suf : List Nat} {s t : OSt} {r : Nat} {x : Rec} (h : RInv s.c s.l) (hq : s.l.q .publish = pre ++ r :: suf)
      (hx : s.c.recs r = some x) (hf : s.m.len + rrLen x.rr < s.c.frame) (ht : x.rr.ttl ≠ 0) (h4 : x.tries + 1 < 4)
      (n : PubL (pre ++ [r]) suf ⟨s.c.announced r x, s.l, s.m.put .an r x.rr (x.cls s.c.cls), answeredAdd s.seen r,
        s.ret + 1⟩ t) : PubL pre (r :: suf) s t
  /-- announced for the last time -/
  | last {pre suf : List Nat} {s t : OSt} {r : Nat} {x : Rec} (h : RInv s.c s.l) (hq : s.l.q .publish = pre ++ r :: suf)
      (hx : s.c.recs r = some x) (hf : s.m.len + rrLen x.rr < s.c.frame) (ht : x.rr.ttl ≠ 0) (h4 : ¬ x.tries + 1 < 4)
      (n : PubL pre suf ⟨s.c.announced r x, s.l.unpublish r, s.m.put .an r x.rr (x.cls s.c.cls),
        answeredAdd s.seen r, s.ret + 1⟩ t) : PubL pre (r :: suf) s t
  /-- a goodbye, the record is freed -/
  | bye {pre suf : List Nat} {s t : OSt} {r : Nat} {x : Rec} (h : RInv s.c s.l) (hq : s.l.q .publish = pre ++ r :: suf)
      (hx : s.c.recs r = some x) (hf : s.m.len + rrLen x.rr < s.c.frame) (ht : x.rr.ttl = 0)
      (n : PubL pre suf ⟨s.c.dropRec r x, (s.l.unpublish r).dead r, s.m.put .an r x.rr (x.cls s.c.cls), s.seen,
        s.ret + 1⟩ t) : PubL pre (r :: suf) s t

theorem PubL.inv {pre suf : List Nat} {s t : OSt} (n : PubL pre suf s t) : RInv t.c t.l := by
  induction n with
  | done h => exact h
  | full h => exact h
  | keep _ _ _ _ _ _ _ ih => exact ih
  | last _ _ _ _ _ _ _ ih => exact ih
  | bye _ _ _ _ _ _ ih => exact ih

theorem succ_split {r : Nat} {suf : List Nat} : ∀ {pre : List Nat}, r ∉ pre →
    Lists.succ r (pre ++ r :: suf) = suf.head?
  | [], _ => by simp [Lists.succ]
  | a :: pre, h => by
    have h1 : a ≠ r := fun e => h (by simp [e])
    have h2 : r ∉ pre := fun m => h (by simp [m])
    simp only [List.cons_append, Lists.succ, if_neg h1]
    exact succ_split h2

theorem pred_absent {r : Nat} : ∀ {l : List Nat}, r ∉ l → Lists.pred r l = none
  | [], _ => rfl
  | a :: l, h => by
    have h2 : r ∉ l := fun m => h (by simp [m])
    have : ¬ l.head? = some r := by
      intro e
      cases l with
      | nil => cases e
      | cons b l => cases e; exact h2 (by simp)
    simp only [Lists.pred, if_neg this]
    exact pred_absent h2

theorem pred_split {r : Nat} {suf : List Nat} (hs : r ∉ suf) : ∀ {pre : List Nat}, r ∉ pre →
    Lists.pred r (pre ++ r :: suf) = pre.getLast?
  | [], _ => by
    simp only [List.nil_append, Lists.pred]
    rw [if_neg, pred_absent hs]
    · rfl
    · intro e
      cases suf with
      | nil => cases e
      | cons b l => cases e; exact hs (by simp)
  | [a], h => by simp [Lists.pred]
  | a :: b :: pre, h => by
    have h1 : b ≠ r := fun e => h (by simp [e])
    have h2 : r ∉ b :: pre := fun m => h (by simp [m])
    have : (b :: pre ++ r :: suf).head? = some b := rfl
    rw [List.cons_append]
    simp only [Lists.pred, this, Option.some.injEq, if_neg h1]
    rw [pred_split hs h2]
    rfl

theorem erase_split {r : Nat} {pre suf : List Nat} (h : r ∉ pre) : (pre ++ r :: suf).erase r = pre ++ suf := by
  rw [List.erase_append_right _ h]
  simp

theorem split_nodup {r : Nat} {pre suf : List Nat} (h : (pre ++ r :: suf).Nodup) : r ∉ pre ∧ r ∉ suf := by
  rw [List.nodup_append] at h
  obtain ⟨_, h2, h3⟩ := h
  exact ⟨fun m => h3 r m r (by simp) rfl, (List.nodup_cons.mp h2).1⟩

theorem mem_unpublish {c : Core} {l : Lists} (h : RInv c l) {v : W} {r s : Nat} (hr : r ∈ l.q .publish) :
    s ∈ (l.unpublish r).q v ↔ s ≠ r ∧ s ∈ l.q v := by
  unfold Lists.unpublish Lists.set
  simp only
  split
  · rename_i hv
    subst hv
    exact (h.nodup _).mem_erase_iff
  · rename_i hv
    constructor
    · intro m
      exact ⟨fun e => hv (h.disj _ _ _ (e ▸ m) hr), m⟩
    · exact fun m => m.2

theorem unpublish_nodup {c : Core} {l : Lists} (h : RInv c l) (r : Nat) (v : W) : ((l.unpublish r).q v).Nodup := by
  unfold Lists.unpublish Lists.set
  simp only
  split
  · exact (h.nodup _).erase _
  · exact h.nodup v

theorem RInv.announced {c : Core} {l : Lists} (h : RInv c l) {r : Nat} {x : Rec} (hx : c.recs r = some x)
    (hr : r ∈ l.q .publish) (h4 : x.tries + 1 < 4) : RInv (c.announced r x) l := by
  refine h.setRec hx rfl rfl (h.conf r x hx) (fun hu => ?_) (fun _ => h4)
  exact absurd (h.disj _ _ _ ((h.probing r x hx).mpr hu) hr) (by simp)

theorem RInv.announcedLast {c : Core} {l : Lists} (h : RInv c l) {r : Nat} {x : Rec} (hx : c.recs r = some x)
    (hr : r ∈ l.q .publish) : RInv (c.announced r x) (l.unpublish r) := by
  have h1 : RInv c (l.unpublish r) := by
    refine h.setQ rfl rfl (unpublish_nodup h r) ?_ ?_ ?_ ?_
    · intro v w s m m'
      exact h.disj _ _ _ ((mem_unpublish h hr).mp m).2 ((mem_unpublish h hr).mp m').2
    · intro v s m
      exact h.qlive _ _ ((mem_unpublish h hr).mp m).2
    · intro s
      rw [mem_unpublish h hr]
      constructor
      · exact fun m => m.2
      · intro m
        exact ⟨fun e => absurd (h.disj _ _ _ (e ▸ m) hr) (by simp), m⟩
    · intro s y hy m
      exact h.ptries s y hy ((mem_unpublish h hr).mp m).2
  refine h1.setRec hx rfl rfl (h.conf r x hx) (fun hu => ?_) (fun m => absurd rfl ((mem_unpublish h hr).mp m).1)
  exact absurd (h.disj _ _ _ ((h.probing r x hx).mpr hu) hr) (by simp)

theorem RInv.dropPublish {c : Core} {l : Lists} (h : RInv c l) {r : Nat} {x : Rec}
    (hr : r ∈ l.q .publish) (hx : c.recs r = some x) : RInv (c.dropRec r x) ((l.unpublish r).dead r) := by
  refine h.drop hx rfl (fun s e => ?_) ?_ (unpublish_nodup h r) (fun v s => mem_unpublish h hr)
  · simp only [Lists.dead, Lists.unpublish, Lists.set, if_neg e]
  · simp only [Lists.dead, if_true]

theorem qNext_ok {c : Core} {l : Lists} (h : RInv c l) {w : W} {r : Nat} {pre suf : List Nat} {c' : Core}
    (hq : l.q w = pre ++ r :: suf) : qNext w r ⟨c', l⟩ = .ok (suf.head?, ⟨c', l⟩) := by
  have hn := h.nodup w
  rw [hq] at hn
  unfold qNext liftQ
  simp only [QOps.next, hq, List.contains_iff_mem, List.mem_append, List.mem_cons, true_or, or_true, if_true, Res.bind,
    succ_split (split_nodup hn).1]

theorem dropRec_announced (c : Core) (r : Nat) (x : Rec) :
    (c.announced r x).dropRec r { x with tries := x.tries + 1, lastSent := c.now } = c.dropRec r x := by
  unfold Core.announced Core.dropRec
  simp only [upd_upd]

theorem unlinkPublish_ok {c : Core} {l : Lists} (h : RInv c l) {r : Nat} {pre suf : List Nat} {c' : Core}
    (hq : l.q .publish = pre ++ r :: suf) :
    (liftQ fun q => (QOps.unlinkPublish r pre.getLast? suf.head? q).bind fun q => .ok ((), q) : M Lists Unit) ⟨c', l⟩ =
      .ok ((), ⟨c', l.unpublish r⟩) := by
  have hn := h.nodup .publish
  rw [hq] at hn
  obtain ⟨h1, h2⟩ := split_nodup hn
  unfold liftQ Lists.unpublish
  simp only [QOps.unlinkPublish, hq, List.contains_iff_mem, List.mem_append, List.mem_cons, true_or, or_true,
    pred_split h2 h1, succ_split h1, and_self, if_true, Res.bind]

theorem publishLoop_ok : ∀ (suf pre : List Nat) (fuel : Nat) (s : OSt), RInv s.c s.l → s.l.q .publish = pre ++ suf →
    suf.length ≤ fuel →
    ∃ t, publishLoop fuel suf.head? pre.getLast? s.m s.seen s.ret ⟨s.c, s.l⟩ = .ok ((t.m, t.seen, t.ret), ⟨t.c, t.l⟩) ∧
      PubL pre suf s t
  | [], pre, fuel, s, h, hq, _ => by
    refine ⟨s, ?_, .done h hq⟩
    unfold publishLoop
    rfl
  | r :: suf, pre, fuel + 1, s, h, hq, hf => by
    have hf : suf.length ≤ fuel := by simpa using hf
    have hr : r ∈ s.l.q .publish := by rw [hq]; simp
    obtain ⟨x, hx⟩ := h.qrec hr
    have hl : s.l.live r = true := by rw [h.live, hx]; rfl
    have hn := h.nodup .publish
    rw [hq] at hn
    obtain ⟨h1, h2⟩ := split_nodup hn
    have hu : (s.l.unpublish r).q .publish = pre ++ suf := by
      unfold Lists.unpublish Lists.set
      simp only [if_true, hq, erase_split h1]
    rw [List.head?_cons]
    unfold publishLoop
    rw [M.bind_ok (getRec_ok hx), M.bind_ok core_ok]
    by_cases fit : s.m.len + rrLen x.rr < s.c.frame
    · rw [if_neg (by simpa using fit), M.bind_ok (qNext_ok h hq)]
      dsimp only
      rw [M.bind_ok (modRec_ok hx)]
      by_cases ttl : x.rr.ttl = 0
      · rw [if_neg (by simp [ttl])]
        obtain ⟨t, e, n⟩ := publishLoop_ok suf pre fuel
          ⟨s.c.dropRec r x, (s.l.unpublish r).dead r, s.m.put .an r x.rr (x.cls s.c.cls), s.seen, s.ret + 1⟩
          (h.dropPublish hr hx) hu hf
        refine ⟨t, ?_, .bye h hq hx fit ttl n⟩
        have e2 : rDone r ⟨s.c.announced r x, s.l.unpublish r⟩ = .ok ((), ⟨s.c.dropRec r x, (s.l.unpublish r).dead r⟩) := by
          rw [rDone_ok (l := s.l.unpublish r) (x := { x with tries := x.tries + 1, lastSent := s.c.now }) (upd_same ..) hl (fun v m => ((mem_unpublish h hr).mp m).1 rfl), dropRec_announced]
        refine (M.bind_ok (unlinkPublish_ok h hq)).trans ?_
        rw [if_pos ttl, if_neg (by simp [ttl])]
        exact (M.bind_ok e2).trans e
      · by_cases four : x.tries + 1 < 4
        · rw [if_pos ⟨ttl, four⟩, if_pos ttl]
          obtain ⟨t, e, n⟩ := publishLoop_ok suf (pre ++ [r]) fuel
            ⟨s.c.announced r x, s.l, s.m.put .an r x.rr (x.cls s.c.cls), answeredAdd s.seen r, s.ret + 1⟩
            (h.announced hx hr four) (by simp [hq]) hf
          refine ⟨t, ?_, .keep h hq hx fit ttl four n⟩
          rw [List.getLast?_concat] at e
          exact e
        · rw [if_neg (by simp [four])]
          obtain ⟨t, e, n⟩ := publishLoop_ok suf pre fuel
            ⟨s.c.announced r x, s.l.unpublish r, s.m.put .an r x.rr (x.cls s.c.cls), answeredAdd s.seen r, s.ret + 1⟩
            (h.announcedLast hx hr) hu hf
          refine ⟨t, ?_, .last h hq hx fit ttl four n⟩
          refine (M.bind_ok (unlinkPublish_ok h hq)).trans ?_
          rw [if_neg ttl, if_pos ttl]
          exact e
    · rw [if_pos (by simpa using fit)]
      exact ⟨s, rfl, .full h hq hx fit⟩

/-! ### Probes -/

/-- Change a record and the queues. -/
theorem RInv.change {c : Core} {l l' : Lists} (h : RInv c l) {r : Nat} {x x' : Rec} (hx : c.recs r = some x)
    (hn : x'.rr.name = x.rr.name) (hs : l'.size = l.size) (hl : l'.live = l.live) (hnd : ∀ w, (l'.q w).Nodup)
    (hd : ∀ v w s, s ∈ l'.q v → s ∈ l'.q w → v = w) (hq : ∀ w s, s ∈ l'.q w → (c.recs s).isSome)
    (hp : ∀ s, s ≠ r → (s ∈ l'.q .probing ↔ s ∈ l.q .probing)) (hpr : r ∈ l'.q .probing ↔ x'.unique ≠ 0 ∧ x'.unique < 5)
    (h5 : x'.unique ≤ 5) (hc : x'.unique ≠ 0 → x'.conflict.isSome)
    (ht : x'.unique ≠ 0 ∧ x'.unique < 5 → x'.tries = 0)
    (hpb : ∀ s, s ≠ r → s ∈ l'.q .publish → s ∈ l.q .publish) (hpr4 : r ∈ l'.q .publish → x'.tries < 4) :
    RInv { c with recs := upd c.recs r (some x') } l' := by
  have some_iff : ∀ s, (upd c.recs r (some x') s).isSome = (c.recs s).isSome := by
    intro s
    by_cases e : s = r
    · subst e; simp [hx]
    · rw [upd_other _ _ _ _ e]
  have cases' : ∀ s y, upd c.recs r (some x') s = some y → (s = r ∧ y = x') ∨ (s ≠ r ∧ c.recs s = some y) := by
    intro s y hy
    by_cases e : s = r
    · subst e
      rw [upd_same] at hy
      cases hy
      exact .inl ⟨rfl, rfl⟩
    · rw [upd_other _ _ _ _ e] at hy
      exact .inr ⟨e, hy⟩
  constructor
  · exact hnd
  · exact hd
  · intro w s m
    show (upd c.recs r (some x') s).isSome
    rw [some_iff]
    exact hq w s m
  · intro s hs'
    rw [hs]
    exact h.bound s (by rw [← some_iff]; exact hs')
  · intro s
    show l'.live s = (upd c.recs r (some x') s).isSome
    rw [some_iff, hl]
    exact h.live s
  · intro i s m
    obtain ⟨y, hy, hb⟩ := h.pub i s m
    by_cases e : s = r
    · subst e
      rw [hx] at hy
      cases hy
      exact ⟨x', upd_same .., by rw [hn]; exact hb⟩
    · exact ⟨y, by show upd c.recs r (some x') s = _; rw [upd_other _ _ _ _ e]; exact hy, hb⟩
  · intro s y hy
    rcases cases' s y hy with ⟨rfl, rfl⟩ | ⟨_, hy⟩
    · rw [hn]
      exact h.mem _ _ hx
    · exact h.mem _ _ hy
  · exact h.pnodup
  · intro s y hy
    rcases cases' s y hy with ⟨rfl, rfl⟩ | ⟨e, hy⟩
    · exact hpr
    · rw [hp s e]
      exact h.probing _ _ hy
  · intro s y hy
    rcases cases' s y hy with ⟨rfl, rfl⟩ | ⟨_, hy⟩
    · exact h5
    · exact h.le5 _ _ hy
  · intro s y hy
    rcases cases' s y hy with ⟨rfl, rfl⟩ | ⟨_, hy⟩
    · exact ht
    · exact h.tries _ _ hy
  · intro s y hy
    rcases cases' s y hy with ⟨rfl, rfl⟩ | ⟨_, hy⟩
    · exact hc
    · exact h.conf _ _ hy
  · intro s y hy m
    rcases cases' s y hy with ⟨rfl, rfl⟩ | ⟨e, hy⟩
    · exact hpr4 m
    · exact h.ptries _ _ hy (hpb s e m)
  · intro u m
    show (upd c.recs r (some x') u.r).isSome
    rw [some_iff]
    exact h.uans u m

/-- Without a record in the probing queue. -/
def Lists.unprobe (l : Lists) (r : Nat) : Lists := l.set .probing ((l.q .probing).erase r)

/-- A record that was probed three times and is to be announced. -/
def Core.verified (c : Core) (r : Nat) (x : Rec) : Core :=
  { c with recs := upd c.recs r (some { x with unique := 5, modified := true, tries := 0 }), publish := c.now }

/-- A record asked for in a probe. -/
def Core.probed (c : Core) (r : Nat) (x : Rec) : Core :=
  { c with recs := upd c.recs r (some { x with lastSent := c.now }) }

/-- A record listed in a probe. -/
def Core.proposed (c : Core) (r : Nat) (x : Rec) : Core :=
  { c with recs := upd c.recs r (some { x with unique := x.unique + 1, lastSent := c.now }) }

/-- The steps of the first probe loop. -/
inductive ProbeA : List Nat → List Nat → OSt → OSt → Prop
  | done {pre : List Nat} {s : OSt} (h : RInv s.c s.l) (hq : s.l.q .probing = pre ++ []) : ProbeA pre [] s s
  /-- the record has been probed three times -/
  | verified {pre suf : List Nat} {s t : OSt} {r : Nat} {x : Rec} (h : RInv s.c s.l)
      (hq : s.l.q .probing = pre ++ r :: suf) (hx : s.c.recs r = some x) (hu : x.unique = 4)
      (n : ProbeA pre suf { s with c := s.c.verified r x, l := (s.l.unprobe r).moveTo .publish r } t) :
      ProbeA pre (r :: suf) s t
  /-- a question for the record -/
  | ask {pre suf : List Nat} {s t : OSt} {r : Nat} {x : Rec} (h : RInv s.c s.l)
      (hq : s.l.q .probing = pre ++ r :: suf) (hx : s.c.recs r = some x) (hu : x.unique ≠ 4)
      (n : ProbeA (pre ++ [r]) suf { s with c := s.c.probed r x, m := s.m.add [.b (.qd x.rr.name x.rr.type s.c.cls)] } t) :
      ProbeA pre (r :: suf) s t

theorem ProbeA.inv {pre suf : List Nat} {s t : OSt} (n : ProbeA pre suf s t) : RInv t.c t.l := by
  induction n with
  | done h => exact h
  | verified _ _ _ _ _ ih => exact ih
  | ask _ _ _ _ _ ih => exact ih

theorem RInv.probed {c : Core} {l : Lists} (h : RInv c l) {r : Nat} {x : Rec} (hx : c.recs r = some x) :
    RInv (c.probed r x) l :=
  h.setRec hx rfl rfl (h.conf r x hx) (h.tries r x hx) (h.ptries r x hx)

theorem mem_unprobe {c : Core} {l : Lists} (h : RInv c l) {v : W} {r s : Nat} (hr : r ∈ l.q .probing) :
    s ∈ (l.unprobe r).q v ↔ s ≠ r ∧ s ∈ l.q v := by
  unfold Lists.unprobe Lists.set
  simp only
  split
  · rename_i hv
    subst hv
    exact (h.nodup _).mem_erase_iff
  · rename_i hv
    constructor
    · intro m
      exact ⟨fun e => hv (h.disj _ _ _ (e ▸ m) hr), m⟩
    · exact fun m => m.2

theorem unprobe_nodup {c : Core} {l : Lists} (h : RInv c l) (r : Nat) (v : W) : ((l.unprobe r).q v).Nodup := by
  unfold Lists.unprobe Lists.set
  simp only
  split
  · exact (h.nodup _).erase _
  · exact h.nodup v

/-- Leaving the probing state. -/
theorem RInv.unprobe {c : Core} {l : Lists} (h : RInv c l) {r : Nat} {x : Rec} (hx : c.recs r = some x)
    (hr : r ∈ l.q .probing) : RInv { c with recs := upd c.recs r (some { x with unique := 5 }) } (l.unprobe r) := by
  have hu := (h.probing r x hx).mp hr
  refine h.change hx rfl rfl rfl (unprobe_nodup h r) ?_ ?_ ?_ ?_ (by simp) (fun _ => h.conf r x hx hu.1)
    (fun _ => h.tries r x hx hu) ?_ ?_
  · intro v w s m m'
    exact h.disj _ _ _ ((mem_unprobe h hr).mp m).2 ((mem_unprobe h hr).mp m').2
  · intro v s m
    exact h.qlive _ _ ((mem_unprobe h hr).mp m).2
  · intro s e
    rw [mem_unprobe h hr]
    exact ⟨fun m => m.2, fun m => ⟨e, m⟩⟩
  · rw [mem_unprobe h hr]
    simp
  · intro s e m
    exact ((mem_unprobe h hr).mp m).2
  · intro m
    exact absurd rfl ((mem_unprobe h hr).mp m).1

theorem unlinkProbing_ok {c : Core} {l : Lists} (h : RInv c l) {r : Nat} {pre suf : List Nat} {c' : Core}
    (hq : l.q .probing = pre ++ r :: suf) :
    (liftQ fun q => (QOps.unlinkProbing r pre.getLast? q).bind fun q => .ok ((), q) : M Lists Unit) ⟨c', l⟩ =
      .ok ((), ⟨c', l.unprobe r⟩) := by
  have hn := h.nodup .probing
  rw [hq] at hn
  obtain ⟨h1, h2⟩ := split_nodup hn
  unfold liftQ Lists.unprobe
  simp only [QOps.unlinkProbing, hq, List.contains_iff_mem, List.mem_append, List.mem_cons, true_or, or_true,
    pred_split h2 h1, and_self, if_true, Res.bind]

theorem publishSt_verified (c : Core) (l : Lists) (r : Nat) (x : Rec) :
    publishSt { c with recs := upd c.recs r (some { x with unique := 5 }) } l r { x with unique := 5 } =
      ⟨c.verified r x, l.moveTo .publish r⟩ := by
  unfold publishSt Core.verified
  rw [if_neg (by simp)]
  simp only [upd_upd]

theorem probeAsk_ok : ∀ (suf pre : List Nat) (fuel : Nat) (s : OSt), RInv s.c s.l → s.l.q .probing = pre ++ suf →
    suf.length ≤ fuel →
    ∃ t, probeAsk fuel suf.head? pre.getLast? s.m ⟨s.c, s.l⟩ = .ok (t.m, ⟨t.c, t.l⟩) ∧ ProbeA pre suf s t
  | [], pre, fuel, s, h, hq, _ => by
    refine ⟨s, ?_, .done h hq⟩
    unfold probeAsk
    rfl
  | r :: suf, pre, fuel + 1, s, h, hq, hf => by
    have hf : suf.length ≤ fuel := by simpa using hf
    have hr : r ∈ s.l.q .probing := by rw [hq]; simp
    obtain ⟨x, hx⟩ := h.qrec hr
    have hn := h.nodup .probing
    rw [hq] at hn
    obtain ⟨h1, h2⟩ := split_nodup hn
    rw [List.head?_cons]
    unfold probeAsk
    rw [M.bind_ok (getRec_ok hx), M.bind_ok (qNext_ok h hq)]
    by_cases four : x.unique = 4
    · rw [if_pos four, M.bind_ok (unlinkProbing_ok h hq), M.bind_ok (modRec_ok hx)]
      have hu := h.unprobe hx hr
      have hx' : upd s.c.recs r (some { x with unique := 5 }) r = some { x with unique := 5 } := upd_same ..
      have e1 := rPublish_ok hu hx'
      have h3 := hu.publishSt hx'
      rw [publishSt_verified] at e1 h3
      have hq' : ((s.l.unprobe r).moveTo .publish r).q .probing = pre ++ suf := by
        have : (s.l.unprobe r).q .probing = pre ++ suf := by
          unfold Lists.unprobe Lists.set
          simp only [if_true, hq, erase_split h1]
        unfold Lists.moveTo
        simp only [reduceCtorEq, if_false, this]
        exact erase_absent (by simp [h1, h2])
      obtain ⟨t, e, n⟩ := probeAsk_ok suf pre fuel
        { s with c := s.c.verified r x, l := (s.l.unprobe r).moveTo .publish r } h3 hq' hf
      exact ⟨t, (M.bind_ok e1).trans e, .verified h hq hx four n⟩
    · rw [if_neg four, M.bind_ok core_ok, M.bind_ok (modRec_ok hx)]
      obtain ⟨t, e, n⟩ := probeAsk_ok suf (pre ++ [r]) fuel
        { s with c := s.c.probed r x, m := s.m.add [.b (.qd x.rr.name x.rr.type s.c.cls)] } (h.probed hx)
        (by simp [hq]) hf
      refine ⟨t, ?_, .ask h hq hx four n⟩
      rw [List.getLast?_concat] at e
      exact e

/-- After the first probe loop no record in the probing queue has been probed three times. -/
theorem ProbeA.no_four {pre suf : List Nat} {s t : OSt} (n : ProbeA pre suf s t)
    (hp : ∀ r ∈ pre, ∀ x, s.c.recs r = some x → x.unique ≠ 4) :
    ∀ r ∈ t.l.q .probing, ∀ x, t.c.recs r = some x → x.unique ≠ 4 := by
  induction n with
  | @done pre s h hq =>
    intro r m
    rw [hq, List.append_nil] at m
    exact hp r m
  | @verified pre suf s t r x h hq hx hu n ih =>
    refine ih fun r' m y hy => ?_
    have hn := h.nodup .probing
    rw [hq] at hn
    have e : r' ≠ r := fun e => (split_nodup hn).1 (e ▸ m)
    refine hp r' m y ?_
    rw [← hy]
    exact (upd_other _ _ _ _ e).symm
  | @ask pre suf s t r x h hq hx hu n ih =>
    refine ih fun r' m y hy => ?_
    by_cases e : r' = r
    · subst e
      have hy : upd s.c.recs r' (some { x with lastSent := s.c.now }) r' = some y := hy
      rw [upd_same] at hy
      cases hy
      exact hu
    · have hy : upd s.c.recs r (some { x with lastSent := s.c.now }) r' = some y := hy
      rw [upd_other _ _ _ _ e] at hy
      refine hp r' ?_ y hy
      simpa [e] using m

/-- The steps of the second probe loop. -/
inductive ProbeB : List Nat → List Nat → OSt → OSt → Prop
  | done {pre : List Nat} {s : OSt} (h : RInv s.c s.l) (hq : s.l.q .probing = pre ++ []) : ProbeB pre [] s s
  | propose {pre suf : List Nat} {s t : OSt} {r : Nat} {x : Rec} (h : RInv s.c s.l)
      (hq : s.l.q .probing = pre ++ r :: suf) (hx : s.c.recs r = some x) (hu : x.unique ≠ 0 ∧ x.unique < 4)
      (n : ProbeB (pre ++ [r]) suf
        { s with c := s.c.proposed r x, m := s.m.put .ns r x.rr s.c.cls, ret := s.ret + 1 } t) :
      ProbeB pre (r :: suf) s t

theorem ProbeB.inv {pre suf : List Nat} {s t : OSt} (n : ProbeB pre suf s t) : RInv t.c t.l := by
  induction n with
  | done h => exact h
  | propose _ _ _ _ _ ih => exact ih

theorem RInv.proposed {c : Core} {l : Lists} (h : RInv c l) {r : Nat} {x : Rec} (hx : c.recs r = some x)
    (hr : r ∈ l.q .probing) (hu : x.unique ≠ 0 ∧ x.unique < 4) : RInv (c.proposed r x) l := by
  refine h.change hx rfl rfl rfl h.nodup h.disj h.qlive (fun _ _ => Iff.rfl) ?_ ?_ ?_ ?_ (fun _ _ m => m) ?_
  · simp only [hr, true_iff]
    omega
  · show x.unique + 1 ≤ 5
    omega
  · intro _
    exact h.conf r x hx hu.1
  · intro _
    exact h.tries r x hx ⟨hu.1, by omega⟩
  · exact h.ptries r x hx

theorem probeAnswer_ok : ∀ (suf pre : List Nat) (fuel : Nat) (s : OSt), RInv s.c s.l → s.l.q .probing = pre ++ suf →
    (∀ r ∈ suf, ∀ x, s.c.recs r = some x → x.unique ≠ 4) → suf.length ≤ fuel →
    ∃ t, probeAnswer fuel suf.head? s.m s.ret ⟨s.c, s.l⟩ = .ok ((t.m, t.ret), ⟨t.c, t.l⟩) ∧ ProbeB pre suf s t
  | [], pre, fuel, s, h, hq, _, _ => by
    refine ⟨s, ?_, .done h hq⟩
    unfold probeAnswer
    rfl
  | r :: suf, pre, fuel + 1, s, h, hq, h4, hf => by
    have hf : suf.length ≤ fuel := by simpa using hf
    have hr : r ∈ s.l.q .probing := by rw [hq]; simp
    obtain ⟨x, hx⟩ := h.qrec hr
    have hu := (h.probing r x hx).mp hr
    have hu4 := h4 r (by simp) x hx
    have hu : x.unique ≠ 0 ∧ x.unique < 4 := by omega
    have hn := h.nodup .probing
    rw [hq] at hn
    obtain ⟨h1, h2⟩ := split_nodup hn
    rw [List.head?_cons]
    unfold probeAnswer
    rw [M.bind_ok (getRec_ok hx), M.bind_ok core_ok, M.bind_ok (modRec_ok hx), M.bind_ok (qNext_ok h hq)]
    obtain ⟨t, e, n⟩ := probeAnswer_ok suf (pre ++ [r]) fuel
      { s with c := s.c.proposed r x, m := s.m.put .ns r x.rr s.c.cls, ret := s.ret + 1 } (h.proposed hx hr hu)
      (by simp [hq]) (fun r' m y hy => by
        have e : r' ≠ r := fun e => h2 (e ▸ m)
        have hy : upd s.c.recs r _ r' = some y := hy
        rw [upd_other _ _ _ _ e] at hy
        exact h4 r' (by simp [m]) y hy) hf
    exact ⟨t, e, .propose h hq hx hu n⟩

end Mdns
