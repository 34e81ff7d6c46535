import Verif.Lemmas.Progress

/-!
# Limits for the size of packets
-/

namespace Mdns

/-! ### Records take room -/

theorem entries_len : ∀ (ops : List MOp) (m : Builder), m.pkt.length + 8 * (entries ops).length ≤ (ops.foldl mstep m).pkt.length
  | [], m => by simp [entries]
  | o :: ops, m => by
    have ih := entries_len ops (mstep m o)
    have h1 := (mstep_len m o).1
    rw [List.foldl_cons]
    cases o with
    | srvNull => simp only [entries]; omega
    | b o =>
      cases o with
      | rr s n t c l =>
        have gen : ∀ m' : Builder, m'.pkt = m.pkt → m.pkt.length + 8 ≤ (rrAppend m' n t c l).pkt.length := by
          intro m' hm
          have := host_grows m' n
          rw [hm] at this
          simp only [rrAppend, Builder.put, List.length_append, putShort, putLong, List.length_cons, List.length_nil]
          omega
        have h2 : m.pkt.length + 8 ≤ (mstep m (.b (.rr s n t c l))).pkt.length := by
          simp only [mstep, bstep]
          cases s <;> exact gen _ rfl
        simp only [entries, List.length_cons]
        omega
      | qd => simp only [entries]; omega
      | long => simp only [entries]; omega
      | ipv4 => simp only [entries]; omega
      | ipv6 => simp only [entries]; omega
      | name => simp only [entries]; omega
      | srv => simp only [entries]; omega
      | raw => simp only [entries]; omega

theorem Made.size {c0 : Core} {multi : Bool} {m : Out} (h : Made c0 multi m) : 12 + 8 * m.tags.length ≤ m.len := by
  rw [Out.len_ops]
  have := entries_len m.ops {}
  rw [h.1, List.length_map] at this
  exact this

/-! ### Limits -/

theorem Out.put_limit {m : Out} {a : Answer} {f : Nat} (h : m.len + rrLen a < f) (s : Section) (r cls : Nat) :
    (m.put s r a cls).len < f + 262 := by
  have := (Out.put_over m s r a cls).1
  omega

theorem ROut.size {w : W} {s t : OSt} (n : ROut w s t) : t.m.len < max (s.m.len + 1) (s.c.frame + 262) := by
  induction n with
  | empty => omega
  | full => omega
  | skip _ _ _ _ _ _ ih => exact ih
  | @send s t r _ x _ _ hx hf _ _ _ ih =>
    have := Out.put_limit hf .an r (x.cls s.c.cls)
    have ih : t.m.len < max ((s.m.put .an r x.rr (x.cls s.c.cls)).len + 1) (s.c.frame + 262) := ih
    omega
  | @bye s t r _ x _ _ hx hf _ _ _ ih =>
    have := Out.put_limit hf .an r (x.cls s.c.cls)
    have ih : t.m.len < max ((s.m.put .an r x.rr (x.cls s.c.cls)).len + 1) (s.c.frame + 262) := ih
    omega

theorem PubL.size {pre suf : List Nat} {s t : OSt} (n : PubL pre suf s t) : t.m.len < max (s.m.len + 1) (s.c.frame + 262) := by
  induction n with
  | done => omega
  | full => omega
  | @keep pre suf s t r x _ _ hx hf _ _ _ ih =>
    have := Out.put_limit hf .an r (x.cls s.c.cls)
    have ih : t.m.len < max ((s.m.put .an r x.rr (x.cls s.c.cls)).len + 1) (s.c.frame + 262) := ih
    omega
  | @last pre suf s t r x _ _ hx hf _ _ _ ih =>
    have := Out.put_limit hf .an r (x.cls s.c.cls)
    have ih : t.m.len < max ((s.m.put .an r x.rr (x.cls s.c.cls)).len + 1) (s.c.frame + 262) := ih
    omega
  | @bye pre suf s t r x _ _ hx hf _ _ ih =>
    have := Out.put_limit hf .an r (x.cls s.c.cls)
    have ih : t.m.len < max ((s.m.put .an r x.rr (x.cls s.c.cls)).len + 1) (s.c.frame + 262) := ih
    omega

theorem PubOpt.size {s t : OSt} (n : PubOpt s t) : t.m.len < max (s.m.len + 1) (s.c.frame + 262) := by
  cases n with
  | no => omega
  | yes _ _ _ n => exact n.size

theorem PauseOpt.size {s t : OSt} (n : PauseOpt s t) : t.m.len < max (s.m.len + 1) (s.c.frame + 262) := by
  cases n with
  | no => omega
  | yes _ _ n => exact n.size

theorem AddL.size {c : Core} {J : Nat → Prop} {m m' : Out} {s s' : List Nat} (n : AddL c J m s m' s') :
    m'.len < max (m.len + 1) (c.frame + 262) := by
  induction n with
  | nil => omega
  | @add m1 _ s1 r x _ _ hx hf _ ih =>
    have := Out.put_limit hf .ar r (x.cls c.cls)
    omega

theorem ProbeA.size {pre suf : List Nat} {s t : OSt} (n : ProbeA pre suf s t) : t.m.len ≤ s.m.len + 260 * suf.length := by
  induction n with
  | done => omega
  | verified _ _ _ _ _ ih =>
    rw [List.length_cons]
    simp only at ih
    omega
  | @ask pre suf s t r x _ _ hx _ _ ih =>
    have := (Out.add_len s.m [.b (.qd x.rr.name x.rr.type s.c.cls)]).2.2
    simp only [List.map_cons, List.map_nil, List.sum_cons, List.sum_nil, MOp.most, maxCost] at this
    rw [List.length_cons]
    simp only at ih
    omega

theorem ProbeB.size {pre suf : List Nat} {s t : OSt} (n : ProbeB pre suf s t) : t.m.len ≤ max s.m.len 4096 + 528 * suf.length := by
  induction n with
  | done => omega
  | @propose pre suf s t r x _ _ hx _ _ ih =>
    have := Out.put_most s.m .ns r x.rr s.c.cls
    rw [List.length_cons]
    simp only at ih
    omega

theorem knownLoop_size (c : Core) (x : Query) : ∀ (es : List Cached) (m : Out),
    (knownLoop c x es m).len < max (m.len + 1) (c.frame + 262)
  | [], m => by simp only [knownLoop]; omega
  | e :: es, m => by
    unfold knownLoop
    split
    · split
      · rename_i hn hf
        have ih := knownLoop_size c x es (m.add (.b (.rr .an x.name x.type c.cls (e.rr.ttl - c.now.sec)) :: aCopy e.rr))
        have h1 : (m.add (.b (.rr .an x.name x.type c.cls (e.rr.ttl - c.now.sec)) :: aCopy e.rr)).len ≤ m.len + rrLen e.rr + 262 := by
          unfold Out.len packetLen
          rw [Out.add_builder, List.foldl_cons]
          have h1 := mstep_len m.builder (.b (.rr .an x.name x.type c.cls (e.rr.ttl - c.now.sec)))
          have h2 := (foldl_len (aCopy e.rr) (mstep m.builder (.b (.rr .an x.name x.type c.cls (e.rr.ttl - c.now.sec))))).2.1
          have h3 := aCopy_cost e.rr
          have h4 : 2 ≤ rrLen e.rr := by unfold rrLen; omega
          simp only [MOp.cost, MOp.most, maxCost] at h1
          omega
        omega
      · omega
    · exact knownLoop_size c x es m

theorem Upd.size {env : Env} {suf : List Nat} {s t : QSt} (n : Upd env suf s t) : t.m.len < max (s.m.len + 1) (s.c.frame + 262) := by
  induction n with
  | done => omega
  | idle _ _ _ _ ih => exact ih
  | @again q suf s t x c1 evs cb _ _ _ _ _ hc _ _ _ ih =>
    have e : c1.frame = s.c.frame := (congrArg Core.frame hc.rest : c1.rest.frame = s.c.rest.frame)
    have ih : t.m.len < max (s.m.len + 1) (c1.frame + 262) := ih
    rw [e] at ih
    exact ih
  | @ask q suf s t x _ _ _ _ _ ih =>
    have h := knownLoop_size (s.c.askedQ q x) x (s.c.chain x.name) s.m
    have ih : t.m.len < max ((knownLoop (s.c.askedQ q x) x (s.c.chain x.name) s.m).len + 1) (s.c.frame + 262) := ih
    have e : (s.c.askedQ q x).frame = s.c.frame := rfl
    rw [e] at h
    omega

theorem QuestOpt.size {env : Env} {m m' : Out} {c c' : Core} {ret : Nat} (n : QuestOpt env m c ret m' c') :
    m'.len < max (m.len + 260 * c.qlist.length + 1) (c.frame + 262) := by
  cases n with
  | no => omega
  | @yes t h1 h2 n =>
    have h := n.size
    have h3 := (Out.add_len m ((c.dueQs c.qlist).map c.questionOf)).2.2
    have h4 : (((c.dueQs c.qlist).map c.questionOf).map MOp.most).sum ≤ 260 * c.qlist.length := by
      have : ∀ l : List Nat, (((c.dueQs l).map c.questionOf).map MOp.most).sum ≤ 260 * l.length := by
        intro l
        induction l with
        | nil => simp [Core.dueQs]
        | cons q l ih =>
          unfold Core.dueQs at ih ⊢
          rw [List.filterMap_cons, List.length_cons]
          split
          · omega
          · simp only [List.map_cons, List.sum_cons]
            have : ∀ x, (c.questionOf x).most = 260 := fun _ => rfl
            rw [this]
            omega
      exact this _
    simp only at h
    omega

/-! ### The kind of message -/

theorem ProbeA.qr {pre suf : List Nat} {s t : OSt} (n : ProbeA pre suf s t) : t.m.qr = s.m.qr := by
  induction n with
  | done => rfl
  | verified _ _ _ _ _ ih => exact ih
  | ask _ _ _ _ _ ih => exact ih

theorem ProbeB.qr {pre suf : List Nat} {s t : OSt} (n : ProbeB pre suf s t) : t.m.qr = s.m.qr := by
  induction n with
  | done => rfl
  | propose _ _ _ _ _ ih => exact ih

theorem ProbeOpt.qr {s t : OSt} (n : ProbeOpt s t) : t.m.qr = s.m.qr := by
  cases n with
  | no => rfl
  | yes _ _ n n' => exact n'.qr.trans n.qr

theorem knownLoop_qr (c : Core) (x : Query) : ∀ (es : List Cached) (m : Out), (knownLoop c x es m).qr = m.qr
  | [], m => rfl
  | e :: es, m => by
    unfold knownLoop
    split
    · split
      · exact knownLoop_qr c x es _
      · rfl
    · exact knownLoop_qr c x es m

theorem Upd.qr {env : Env} {suf : List Nat} {s t : QSt} (n : Upd env suf s t) : t.m.qr = s.m.qr := by
  induction n with
  | done => rfl
  | idle _ _ _ _ ih => exact ih
  | again _ _ _ _ _ _ _ _ _ ih => exact ih
  | ask _ _ _ _ _ ih => exact ih.trans (knownLoop_qr ..)

theorem QuestOpt.qr {env : Env} {m m' : Out} {c c' : Core} {ret : Nat} (n : QuestOpt env m c ret m' c') : m'.qr = m.qr := by
  cases n with
  | no => rfl
  | yes _ _ n => exact n.qr

/-! ### Whole packets -/

theorem ProbeA.shrink {pre suf : List Nat} {s t : OSt} (n : ProbeA pre suf s t) :
    (t.l.q .probing).length ≤ (s.l.q .probing).length ∧
      ((∀ r ∈ suf, ∀ x, s.c.recs r = some x → x.unique ≠ 4) → t.l = s.l) := by
  induction n with
  | done => exact ⟨Nat.le_refl _, fun _ => rfl⟩
  | @verified pre suf s t r x h hq hx hu n ih =>
    constructor
    · refine Nat.le_trans ih.1 ?_
      simp only [Lists.moveTo, Lists.unprobe, Lists.set]
      simp only [reduceCtorEq, if_false, if_true]
      rw [List.length_erase, List.length_erase]
      split <;> split <;> omega
    · intro hh
      exact absurd hu (hh r (by simp) x hx)
  | @ask pre suf s t r x h hq hx hu n ih =>
    refine ⟨ih.1, fun hh => ih.2 fun r' m' y hy => ?_⟩
    have hy : upd s.c.recs r (some { x with lastSent := s.c.now }) r' = some y := hy
    by_cases e : r' = r
    · subst e
      rw [upd_same] at hy
      cases hy
      exact hu
    · rw [upd_other _ _ _ _ e] at hy
      exact hh r' (by simp [m']) y hy

theorem ROut.probing {w : W} {s t : OSt} (n : ROut w s t) (hw : w ≠ .probing) : t.l.q .probing = s.l.q .probing := by
  have e : ∀ l : Lists, (l.tl w).q .probing = l.q .probing := by
    intro l
    unfold Lists.tl Lists.set
    exact if_neg (Ne.symm hw)
  induction n with
  | empty => rfl
  | full => rfl
  | skip _ _ _ _ _ _ ih => exact ih.trans (e _)
  | send _ _ _ _ _ _ _ ih => exact ih.trans (e _)
  | bye _ _ _ _ _ _ _ ih => exact ih.trans (e _)

theorem PubL.other {pre suf : List Nat} {s t : OSt} (n : PubL pre suf s t) {w : W} (hw : w ≠ .publish) : t.l.q w = s.l.q w := by
  have e : ∀ (l : Lists) r, (l.unpublish r).q w = l.q w := by
    intro l r
    unfold Lists.unpublish Lists.set
    exact if_neg hw
  induction n with
  | done => rfl
  | full => rfl
  | keep _ _ _ _ _ _ _ ih => exact ih
  | last _ _ _ _ _ _ _ ih => exact ih.trans (e _ _)
  | bye _ _ _ _ _ _ ih => exact ih.trans (e _ _)

theorem PubOpt.probing {s t : OSt} (n : PubOpt s t) : t.l.q .probing = s.l.q .probing := by
  cases n with
  | no => rfl
  | yes _ _ _ n => exact n.other (by simp)

theorem PauseOpt.probing {s t : OSt} (n : PauseOpt s t) : t.l.q .probing = s.l.q .probing := by
  cases n with
  | no => rfl
  | yes _ _ n => exact n.probing (by simp)

theorem recfree_eq {c c' : Core} (h : c'.recfree = c.recfree) : c'.frame = c.frame ∧ c'.qlist = c.qlist :=
  ⟨(congrArg Core.frame h : c'.recfree.frame = c.recfree.frame), (congrArg Core.qlist h : c'.recfree.qlist = c.recfree.qlist)⟩

/-- The size of the packet with the probes. -/
theorem ProbeOpt.size {s t : OSt} (n : ProbeOpt s t) :
    t.m.len ≤ max s.m.len 4096 + 788 * (s.l.q .probing).length := by
  cases n with
  | no => omega
  | @yes u t _ _ n n' =>
    have h1 := n.size
    have h2 := n'.size
    have h3 := n.shrink.1
    show t.m.len ≤ _
    omega

/-- Responses for everyone. -/
theorem OutMsg.response_size {env : Env} {c : Core} {l : Lists} {ret : Nat} {m : Out} {to : Addr} {c' : Core} {l' : Lists}
    (n : OutMsg env c l ret m to c' l') (hm : c.uanswers = []) (hq : m.qr = true) : m.len < max 13 (c.frame + 262) := by
  have h0 : ({} : Out).len = 12 := rfl
  cases n with
  | unicast h => rw [hm] at h; cases h
  | @shutdown s1 s2 h n1 n2 =>
    have h1 := n1.size
    have h2 := n2.size
    rw [(recfree_eq n1.recfree).1] at h2
    simp only at h1 h2
    omega
  | @normal s1 s2 _ _ _ _ h n1 n2 hs n3 =>
    have h1 := n1.size
    have h2 := n2.size
    rw [(recfree_eq n1.recfree).1] at h2
    simp only at h1 h2
    cases n3 with
    | @answers s3 _ _ np na =>
      have h3 := np.size
      have h4 := na.size
      rw [(recfree_eq np.recfree).1, (recfree_eq n2.recfree).1, (recfree_eq n1.recfree).1] at h4
      rw [(recfree_eq n2.recfree).1, (recfree_eq n1.recfree).1] at h3
      simp only at h3 h4
      omega
    | probes np na hr nb => rw [nb.qr] at hq; cases hq
    | questions np na hr nb _ nq => rw [nq.qr, nb.qr] at hq; cases hq

/-- Arithmetic for the size of packets. -/
theorem limit_max (a0 a1 a2 a3 a4 f : Nat) (h0 : a0 = 12) (h1 : a1 < max (a0 + 1) (f + 262)) (h2 : a2 < max (a1 + 1) (f + 262))
    (h3 : a3 < max (a2 + 1) (f + 262)) (h4 : a4 < max (a3 + 1) (f + 262)) : max a4 4096 ≤ max (f + 262) 4624 := by
  have h : a4 ≤ f + 262 := by omega
  rw [Nat.max_le]
  exact ⟨Nat.le_trans h (Nat.le_max_left ..), Nat.le_trans (by decide) (Nat.le_max_right ..)⟩

theorem limit_sum (a0 a1 a2 a3 a4 a5 a6 p f q : Nat) (h0 : a0 = 12) (h1 : a1 < max (a0 + 1) (f + 262)) (h2 : a2 < max (a1 + 1) (f + 262))
    (h3 : a3 < max (a2 + 1) (f + 262)) (h4 : a4 < max (a3 + 1) (f + 262)) (h5 : a5 ≤ max a4 4096 + 788 * p)
    (h6 : a6 < max (a5 + 260 * q + 1) (f + 262)) : a6 ≤ max (f + 262) 4624 + 788 * p + 260 * q := by
  have h := limit_max a0 a1 a2 a3 a4 f h0 h1 h2 h3 h4
  have h' := Nat.le_max_left (f + 262) 4624
  clear h1 h2 h3 h4
  generalize max a4 4096 = x at *
  generalize max (f + 262) 4624 = y at *
  omega

/-- All packets. -/
theorem OutMsg.size {env : Env} {c : Core} {l : Lists} {ret : Nat} {m : Out} {to : Addr} {c' : Core} {l' : Lists}
    (n : OutMsg env c l ret m to c' l') :
    m.len ≤ max (c.frame + 262) 4624 + 788 * (l.q .probing).length + 260 * c.qlist.length := by
  have h0 : ({} : Out).len = 12 := rfl
  cases n with
  | @unicast u us x m seen h hx na nf =>
    have h1 := na.size
    have h2 := Out.put_most (({ id := u.id } : Out).add [.b (.qd x.rr.name x.rr.type c.cls)]) .an u.r x.rr c.cls
    have h3 := (Out.add_len ({ id := u.id } : Out) [.b (.qd x.rr.name x.rr.type c.cls)]).2.2
    have h4 : ({ id := u.id } : Out).len = 12 := rfl
    simp only [List.map_cons, List.map_nil, List.sum_cons, List.sum_nil, MOp.most, maxCost] at h3
    simp only at h1
    omega
  | @shutdown s1 s2 h n1 n2 =>
    have h1 := n1.size
    have h2 := n2.size
    rw [(recfree_eq n1.recfree).1] at h2
    simp only at h1 h2
    omega
  | @normal s1 s2 _ _ _ _ h n1 n2 hs n3 =>
    have h1 := n1.size
    have h2 := n2.size
    rw [(recfree_eq n1.recfree).1] at h2
    simp only at h1 h2
    cases n3 with
    | @answers s3 _ _ np na =>
      have h3 := np.size
      have h4 := na.size
      rw [(recfree_eq np.recfree).1, (recfree_eq n2.recfree).1, (recfree_eq n1.recfree).1] at h4
      rw [(recfree_eq n2.recfree).1, (recfree_eq n1.recfree).1] at h3
      simp only at h3 h4
      omega
    | @probes s3 s4 m0 seen np na hr nb =>
      have h3 := np.size
      have h4 := na.size
      rw [(recfree_eq np.recfree).1, (recfree_eq n2.recfree).1, (recfree_eq n1.recfree).1] at h4
      rw [(recfree_eq n2.recfree).1, (recfree_eq n1.recfree).1] at h3
      have h5 := nb.size
      have hp : s3.l.q .probing = l.q .probing :=
        np.probing.trans (n2.probing.trans (n1.probing (by simp)))
      have e : ∀ m : Out, ({ m with qr := false, aa := false } : Out).len = m.len := fun m => Out.len_header m false false
      simp only [e, hp] at h3 h4 h5
      have h := limit_max _ _ _ _ _ _ h0 h1 h2 h3 h4
      generalize max m0.len 4096 = x at h h5
      generalize max (c.frame + 262) 4624 = y at h ⊢
      omega
    | @questions s3 s4 m0 seen _ _ _ _ np na hr nb hr2 nq ng =>
      have h3 := np.size
      have h4 := na.size
      rw [(recfree_eq np.recfree).1, (recfree_eq n2.recfree).1, (recfree_eq n1.recfree).1] at h4
      rw [(recfree_eq n2.recfree).1, (recfree_eq n1.recfree).1] at h3
      have h5 := nb.size
      have h6 := nq.size
      rw [(recfree_eq nb.recfree).1, (recfree_eq nb.recfree).2] at h6
      have e1 := recfree_eq (np.recfree.trans (n2.recfree.trans n1.recfree))
      have hp : s3.l.q .probing = l.q .probing :=
        np.probing.trans (n2.probing.trans (n1.probing (by simp)))
      have e : ∀ m : Out, ({ m with qr := false, aa := false } : Out).len = m.len := fun m => Out.len_header m false false
      simp only [e, hp, e1.1, e1.2] at h3 h4 h5 h6
      exact limit_sum _ _ _ _ _ _ _ _ _ _ h0 h1 h2 h3 h4 h5 h6

/-! ### Which additional records -/

/-- Additional records have a reason. -/
theorem OutMsg.extra {env : Env} {c : Core} {l : Lists} {ret : Nat} {m : Out} {to : Addr} {c' : Core} {l' : Lists}
    (n : OutMsg env c l ret m to c' l') {r : Nat} (h : (.ar, r) ∈ m.tags) :
    ∃ r0, (.an, r0) ∈ m.tags ∧ Extra c' r0 r := by
  cases n with
  | @unicast u us x m seen hu hx na nf =>
    rcases na.extra _ h with h | h
    · rw [put_tags] at h
      simp [Out.add] at h
    · refine ⟨u.r, na.grows.2.1 _ ?_, h.2⟩
      rw [put_tags]
      simp
  | @shutdown s1 s2 hu n1 n2 =>
    have a := n2.answering (n1.answering (.start c l))
    cases a.tags _ h
  | @normal s1 s2 _ _ _ _ hu n1 n2 hs n3 =>
    have rc := n2.recall (n1.recall (.start c l))
    cases n3 with
    | @answers s3 _ _ np na hr =>
      have rc := np.recall rc
      rcases na.extra _ h with h | ⟨_, r0, h0, h1⟩
      · cases rc.ans.tags _ h
      · exact ⟨r0, na.grows.2.1 _ (rc.sub r0 h0), h1⟩
    | @probes s3 s4 m0 seen np na hr nb hr2 =>
      have rc := np.recall rc
      obtain ⟨e1, e2⟩ := rc.ans.empty hr
      rw [e2] at na
      have := na.none
      subst this
      obtain ⟨rs, hn, e3, _⟩ := nb.tags
      have e3 : s4.m.tags = s3.m.tags ++ rs.map fun r => (.ns, r) := e3
      rw [e1, List.nil_append] at e3
      rw [e3] at h
      simp at h
    | @questions s3 s4 m0 seen _ _ _ _ np na hr nb hr2 nq ng =>
      have rc := np.recall rc
      obtain ⟨e1, e2⟩ := rc.ans.empty hr
      rw [e2] at na
      have := na.none
      subst this
      obtain ⟨rs, hn, e3, _⟩ := nb.tags
      have e3 : s4.m.tags = s3.m.tags ++ rs.map fun r => (.ns, r) := e3
      rw [e1, List.nil_append] at e3
      rw [nq.tags, e3] at h
      simp at h

/-- All additional records there is a reason for are there if there is room. -/
theorem OutMsg.full {env : Env} {c : Core} {l : Lists} {ret : Nat} {m : Out} {to : Addr} {c' : Core} {l' : Lists}
    (n : OutMsg env c l ret m to c' l') (hsd : c.shutdown = false)
    (hl : (m.tags.filter fun t => t.1 = .an).length ≤ additionalMax) {r0 r : Nat} (h0 : (.an, r0) ∈ m.tags)
    (h : Extra c' r0 r) :
    (.an, r) ∈ m.tags ∨ (.ar, r) ∈ m.tags ∨ ∀ x, c'.recs r = some x → c'.frame ≤ m.len + rrLen x.rr := by
  cases n with
  | @unicast u us x m seen hu hx na nf =>
    have : r0 = u.r := by
      rcases na.extra _ h0 with h0 | h0
      · rw [put_tags] at h0
        simpa [Out.add] using h0
      · cases h0.1
    subst this
    rcases nf r h with h | h
    · rw [List.mem_singleton] at h
      subst h
      exact .inl h0
    · exact .inr h
  | shutdown _ _ _ hs => rw [hs] at hsd; cases hsd
  | @normal s1 s2 _ _ _ _ hu n1 n2 hs n3 =>
    have rc := n2.recall (n1.recall (.start c l))
    cases n3 with
    | @answers s3 _ _ np na hr nf =>
      have rc := np.recall rc
      obtain ⟨as, ea⟩ := rc.ans.split
      obtain ⟨xs, ex⟩ := na.tags
      have hl' : s3.m.tags.length ≤ additionalMax := by
        refine Nat.le_trans ?_ hl
        rw [ex, List.filter_append, List.length_append]
        have : s3.m.tags.filter (fun t => t.1 = .an) = s3.m.tags := by
          rw [List.filter_eq_self]
          intro t m
          rw [rc.ans.tags t m]
          rfl
        rw [this]
        omega
      have m0 : (Section.an, r0) ∈ s3.m.tags := by
        rcases na.extra _ h0 with h0 | h0
        · exact h0
        · cases h0.1
      rcases rc.all hl' _ m0 with hs | hs
      · rcases nf r0 hs r h with h | h
        · exact .inl (na.grows.2.1 _ (rc.sub r h))
        · exact .inr h
      · obtain ⟨x0, hx0, _⟩ := h
        rw [hs] at hx0
        cases hx0
    | @probes s3 s4 m0 seen np na hr nb hr2 =>
      have rc := np.recall rc
      obtain ⟨e1, e2⟩ := rc.ans.empty hr
      rw [e2] at na
      have := na.none
      subst this
      obtain ⟨rs, hn, e3, _⟩ := nb.tags
      have e3 : s4.m.tags = s3.m.tags ++ rs.map fun r => (.ns, r) := e3
      rw [e1, List.nil_append] at e3
      rw [e3] at h0
      simp at h0
    | @questions s3 s4 m0 seen _ _ _ _ np na hr nb hr2 nq ng =>
      have rc := np.recall rc
      obtain ⟨e1, e2⟩ := rc.ans.empty hr
      rw [e2] at na
      have := na.none
      subst this
      obtain ⟨rs, hn, e3, _⟩ := nb.tags
      have e3 : s4.m.tags = s3.m.tags ++ rs.map fun r => (.ns, r) := e3
      rw [e1, List.nil_append] at e3
      rw [nq.tags, e3] at h0
      simp at h0

theorem AddL.keeps {c : Core} {J : Nat → Prop} {m m' : Out} {s s' : List Nat} (n : AddL c J m s m' s') :
    ∀ r ∈ s, r ∈ s' := by
  induction n with
  | nil => exact fun _ h => h
  | add _ _ _ _ _ ih => exact fun r h => answeredAdd_mem (ih r h)

end Mdns
