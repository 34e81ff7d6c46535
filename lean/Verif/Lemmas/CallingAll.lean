import Verif.Lemmas.Calling

/-!
# Callbacks that call the library: receiving and making packets
-/

namespace Mdns

open M

theorem Goes.taken {c c' : Core} (g : Goes c c') (a : Resource) (src : Addr) : c'.taken a src = c.taken a src := by
  funext as
  unfold Core.taken Core.without Core.having Core.flushed Core.expiry Core.live
  rw [g.now, g.cls]

theorem inRestCb_ok {env : Env} {p : Callbacks} (hp : p.Polite env) {src : Addr} {a : Resource} (ha : a.WF) {c : Core} {l : Lists} (h : DInv c l) :
    ∃ c' l', inRestCb env p src a ⟨c, l⟩ = .ok ((), ⟨c', l'⟩) ∧
      SweptCb env p (bucket a.name lprime) (c.taken a src (c.rrs (bucket a.name lprime))) c l c' l' := by
  unfold inRestCb
  rw [M.bind_ok core_ok]
  dsimp only
  cases hr : c.recvCb with
  | false =>
    obtain ⟨c', l', e, s⟩ := cacheInCb_ok (env := env) hp ha src h
    exact ⟨c', l', e, s⟩
  | true =>
    have i1 : DInv (c.heard [.received a]) l := ⟨h.cinv.heard1 (e := .received _) trivial, h.rinv.congr rfl rfl rfl⟩
    obtain ⟨c1, l1, e1, n1⟩ := reactWith_calls (env := env) (p.receive (c.heard [.received a])) i1 (hp.received _)
    have g : Goes c c1 := ⟨n1.goes.rrs, n1.goes.now, n1.goes.cls⟩
    obtain ⟨c', l', e, s⟩ := cacheInCb_ok (env := env) hp ha src (n1.inv i1)
    refine ⟨c', l', ?_, (Course.received h n1 (.nil (n1.inv i1))).trans s.course, s.now.trans g.now, s.cls.trans g.cls,
      fun j hj => (s.other j hj).trans (g.rrs j), ?_⟩
    · rw [if_pos rfl]
      rw [M.bind_ok modC_ok, M.bind_ok core_ok]
      exact (M.bind_ok e1).trans e
    · rw [s.self, g.taken, g.rrs]

/-- The rest of `inAnswerCb` once it is known which record is in conflict. -/
def inAnswerCbK (env : Env) (p : Callbacks) (src : Addr) (a : Resource) (did : Bool) (bad : Option Nat) : M Lists Bool :=
  match bad with
  | none => do
    inRestCb env p src a
    pure did
  | some r => do
    if !did then modC (refreshLocals env true)
    if ← isLocal env src then pure true
    else do
      conflictR env p.conflict r
      inRestCb env p src a
      pure true

/-- What is left alone but for the chain of an answer. -/
structure Heeded (env : Env) (p : Callbacks) (src : Addr) (a : Resource) (c : Core) (l : Lists) (c' : Core) (l' : Lists) : Prop where
  course : Course env p c l c' l'
  now : c'.now = c.now
  cls : c'.cls = c.cls
  other : ∀ j, j ≠ bucket a.name lprime → c'.rrs j = c.rrs j
  /-- it is cached, unless it conflicts with a record and turns out to be from here -/
  self : c'.rrs (bucket a.name lprime) = c.taken a src (c.rrs (bucket a.name lprime)) ∨
    (∃ r, c.rival a = some r) ∧ c'.rrs (bucket a.name lprime) = c.rrs (bucket a.name lprime)

theorem Op.considerate.inner {n : Bytes} {c : Core} {o : Op} (h : o.considerate n c) : o.inner = true := by
  cases o <;> first | rfl | exact h.elim

theorem Reacts.goes {env : Env} {n : Bytes} {fs : List (Core → Op)} {c c' : Core} {l l' : Lists} (n : Reacts env n fs c l c' l') : Goes c c' := by
  induction n with
  | nil => exact .refl _
  | cons _ hc n _ ih => exact (n.goes hc.inner).trans ih

theorem conflictR_goes {env : Env} {p : Callbacks} (hp : p.conflict.Considerate) {c : Core} {l : Lists} (i : DInv c l) {r : Nat} {x : Rec}
    (hx : c.recs r = some x) (hu : x.unique ≠ 0) : ∃ c' l', conflictR env p.conflict r ⟨c, l⟩ = .ok ((), ⟨c', l'⟩) ∧ Course env p c l c' l' ∧ Goes c c' := by
  have i0 : DInv (c.heard [.conflict r x.rr.name x.rr.type]) l :=
    ⟨i.cinv.heard1 (e := .conflict _ _ _) trivial, i.rinv.congr rfl rfl rfl⟩
  obtain ⟨c1, l1, e1, n1⟩ := reactWith_ok (env := env) (name := x.rr.name) (p.conflict x.rr.name x.rr.type (c.heard [.conflict r x.rr.name x.rr.type])) i0
    fun f m => hp _ _ _ f m
  have i1 := n1.inv i0
  obtain ⟨x1, hx1, hn1⟩ := n1.held.recs r x hx rfl
  have g1 : Goes c c1 := ⟨n1.goes.rrs, n1.goes.now, n1.goes.cls⟩
  refine ⟨(doneSt c1 l1 r x1).c, (doneSt c1 l1 r x1).q, ?_, .conflict i hx n1 i1 hx1 hn1 (.nil (doneSt_inv i1 hx1)), g1.trans (Aloof.of (doneSt_recfree ..)).goes⟩
  unfold conflictR
  rw [M.bind_ok (getRec_ok hx)]
  obtain ⟨cf, hcf⟩ := Option.isSome_iff_exists.mp (i.rinv.conf r x hx hu)
  rw [hcf]
  dsimp only
  rw [M.bind_ok modC_ok, M.bind_ok core_ok]
  exact (M.bind_ok e1).trans (done_ok i1.rinv hx1)

theorem inAnswerCb_ok {env : Env} {p : Callbacks} (hp : p.Polite env) (hcp : p.conflict.Considerate) {src : Addr} {a : Resource} {did : Bool}
    {c : Core} {l : Lists} (h : DInv c l) (ha : a.WF) :
    ∃ did' c' l', inAnswerCb env p src a did ⟨c, l⟩ = .ok (did', ⟨c', l'⟩) ∧ Heeded env p src a c l c' l' := by
  have key : ∀ bad, c.rival a = bad → ∃ did' c' l', inAnswerCbK env p src a did bad ⟨c, l⟩ = .ok (did', ⟨c', l'⟩) ∧
      Heeded env p src a c l c' l' := by
    intro bad hb
    cases bad with
    | none =>
      obtain ⟨c', l', e, s⟩ := inRestCb_ok (env := env) hp (src := src) ha h
      refine ⟨did, c', l', ?_, s.course, s.now, s.cls, s.other, .inl s.self⟩
      unfold inAnswerCbK
      dsimp only
      rw [M.bind_ok e]
      rfl
    | some r =>
      have hr := hb
      unfold Core.rival at hr
      split at hr
      · cases hr
      · rename_i r' hm
        split at hr
        · cases hr
        · rename_i x hx
          split at hr
          · rename_i hu
            cases hr
            have e1 : ∃ c1 : Core, inAnswerCbK env p src a did (some r) ⟨c, l⟩ = (do
                if ← isLocal env src then pure true
                else do
                  conflictR env p.conflict r
                  inRestCb env p src a
                  pure true : M Lists Bool) ⟨c1, l⟩ ∧ Locals env c c1 := by
              cases did with
              | true => exact ⟨c, rfl, .refl c⟩
              | false => exact ⟨refreshLocals env true c, rfl, refreshLocals_locals env true c⟩
            obtain ⟨c1, e1, l1⟩ := e1
            rw [e1]
            obtain ⟨b, c2, e2, l2, _⟩ := isLocal_ok env src c1 l
            rw [M.bind_ok e2]
            have l12 := l1.trans l2
            have i2 : DInv c2 l := ⟨l12.cinv h.cinv, l12.rinv h.rinv⟩
            have t2 : Course env p c l c2 l := .one h i2 l12.recs (by obtain ⟨_, _, _, rfl, _⟩ := l12; exact .refl _)
            have g2 : Goes c c2 := by
              obtain ⟨_, _, _, rfl, _⟩ := l12
              exact ⟨fun _ => rfl, rfl, rfl⟩
            cases b with
            | true => exact ⟨true, c2, l, rfl, t2, g2.now, g2.cls, fun j _ => g2.rrs j, .inr ⟨⟨r, hb⟩, g2.rrs _⟩⟩
            | false =>
              have hx2 : c2.recs r = some x := by rw [l12.recs]; exact hx
              obtain ⟨c3, l3, e3, i3, g3⟩ := conflictR_goes (env := env) hcp i2 hx2 hu.1
              obtain ⟨c', l', e, s⟩ := inRestCb_ok (env := env) hp (src := src) ha i3.inv
              have g := g2.trans g3
              refine ⟨true, c', l', ?_, (t2.trans i3).trans s.course, s.now.trans g.now, s.cls.trans g.cls, fun j hj => (s.other j hj).trans (g.rrs j), .inl ?_⟩
              · rw [if_neg (by simp), M.bind_ok e3]
                exact (M.bind_ok e).trans rfl
              · rw [s.self, g.rrs, g.taken]
          · cases hr
  obtain ⟨did', c', l', e, n⟩ := key _ rfl
  refine ⟨did', c', l', ?_, n⟩
  rw [← e]
  unfold inAnswerCb
  rw [M.bind_ok (rFirst_ok h.rinv _ _)]
  unfold Core.rival
  cases hm : (c.matching a.name a.type).head? with
  | none => rfl
  | some r =>
    have : r ∈ c.matching a.name a.type := List.mem_of_head? hm
    obtain ⟨x, hx, _⟩ := isRec_name (List.mem_filter.mp this).2
    dsimp only
    rw [M.bind_ok (getRec_ok hx), hx]
    rfl

theorem inAnswersCb_ok {env : Env} {p : Callbacks} (hp : p.Polite env) (hcp : p.conflict.Considerate) {src : Addr} :
    ∀ (as : List Resource) (did : Bool) {c : Core} {l : Lists}, (∀ a ∈ as, a.WF) → DInv c l →
      ∃ c' l', inAnswersCb env p src as did ⟨c, l⟩ = .ok ((), ⟨c', l'⟩) ∧ Course env p c l c' l'
  | [], did, c, l, _, h => ⟨c, l, rfl, .nil h⟩
  | a :: as, did, c, l, ha, h => by
    obtain ⟨did', c1, l1, e1, n1⟩ := inAnswerCb_ok (env := env) hp hcp (src := src) (did := did) h (ha a (by simp))
    obtain ⟨c', l', e, n⟩ := inAnswersCb_ok hp hcp as did' (fun a m => ha a (by simp [m])) n1.course.inv
    refine ⟨c', l', ?_, n1.course.trans n⟩
    unfold inAnswersCb
    rw [M.bind_ok e1]
    exact e

theorem inMsgCb_ok {env : Env} {p : Callbacks} (hp : p.Polite env) (hcp : p.conflict.Considerate) {now : TV} {m : Msg} {src : Addr} {c : Core}
    {l : Lists} (h : DInv c l) (hm : ∀ a ∈ m.an, a.WF) :
    ∃ ret c' l', inMsgCb env p now m src ⟨c, l⟩ = .ok (ret, ⟨c', l'⟩) ∧ DInv c' l' ∧
      (m.header.qr = true → Course env p c l c' l') := by
  unfold inMsgCb
  rw [M.bind_ok core_ok]
  cases hs : c.shutdown with
  | true => exact ⟨1, c, l, rfl, h, fun _ => .nil h⟩
  | false =>
    rw [if_neg (by simp), M.bind_ok modC_ok]
    have h0 := h.atNow now
    obtain ⟨b, c1, e1, hl, hf⟩ := isLocal_ok env src { c with now := now } l
    have h1 : DInv c1 l := ⟨hl.cinv h0.cinv, hl.rinv h0.rinv⟩
    have t1 : Course env p c l c1 l := .one h h1 hl.recs (by obtain ⟨_, _, _, rfl, _⟩ := hl; exact .refl _)
    rw [M.bind_ok e1]
    cases b with
    | true => exact ⟨0, c1, l, rfl, h1, fun _ => t1⟩
    | false =>
      cases hq : m.header.qr with
      | false =>
        obtain ⟨c', l', e, n⟩ := inQuestionsR_ok (env := env) hcp (m := m) (src := src) m.qd false h1
        exact ⟨0, c', l', (M.bind_ok e).trans rfl, n.inv, fun hh => by cases hh⟩
      | true =>
        obtain ⟨c', l', e, n⟩ := inAnswersCb_ok (env := env) hp hcp (src := src) m.an false hm h1
        exact ⟨0, c', l', (M.bind_ok e).trans rfl, n.inv, fun _ => t1.trans n⟩

/-! ### Making packets -/

theorem cExpireFCb_unexpired (env : Env) (p : Callbacks) (i : Nat) : ∀ (fuel k : Nat) (c : Core) (l : Lists),
    (∀ e ∈ c.cache i, c.now.sec < e.rr.ttl) → (c.cache i).length - k < fuel → cExpireFCb env p i fuel k ⟨c, l⟩ = .ok ((), ⟨c, l⟩)
  | 0, _, _, _, _, hf => absurd hf (by simp)
  | fuel + 1, k, c, l, h, hf => by
    unfold cExpireFCb
    rw [M.bind_ok core_ok]
    cases he : (c.cache i)[k]? with
    | none => rfl
    | some e =>
      have hl := (List.getElem?_eq_some_iff.mp he).1
      dsimp only
      rw [if_neg (by have := h e (List.mem_of_getElem? he); omega)]
      exact cExpireFCb_unexpired env p i fuel (k + 1) c l h (by omega)

theorem updateLoopCb_ok {env : Env} {p : Callbacks} (hp : p.Polite env) : ∀ (fuel : Nat) (suf : List Nat) (m : Out) (best ret : Nat) (c : Core)
    (l : Lists), DInv c l → (p.Careful ∨ c.Unexpired suf) → (∃ pre, c.qlist = pre ++ suf) → suf.length ≤ fuel →
    ∃ r c' l', updateLoopCb env p fuel suf.head? m best ret ⟨c, l⟩ = .ok (r, ⟨c', l'⟩) ∧ Course env p c l c' l'
  | fuel, [], m, best, ret, c, l, h, _, _, _ => by
    refine ⟨(m, best, ret), c, l, ?_, .nil h⟩
    unfold updateLoopCb
    rfl
  | fuel + 1, q :: suf, m, best, ret, c, l, h, hk, ⟨pre, hl⟩, hf => by
    have hf : suf.length ≤ fuel := by simpa using hf
    have hm : q ∈ c.qlist := by rw [hl]; simp
    obtain ⟨x, hx⟩ := h.cinv.qlist q hm
    have hnd := h.cinv.lnodup
    rw [hl] at hnd
    have hb : behind q c.qlist = suf := by
      rw [hl]
      exact behind_split (split_nodup hnd).1
    rw [List.head?_cons]
    unfold updateLoopCb
    rw [M.bind_ok core_ok, hx]
    dsimp only
    by_cases hi : x.nexttry = 0 ∨ x.nexttry > c.now.sec
    · rw [if_pos hi, hb]
      exact updateLoopCb_ok hp fuel suf m best ret c l h (hk.imp_right fun u p m => u p (List.mem_cons_of_mem _ m)) ⟨pre ++ [q], by simp [hl]⟩ hf
    · rw [if_neg hi]
      by_cases h3 : x.tries = 3
      · rw [if_pos h3]
        have e0 : ∃ c1 l1, cExpireCb env p (bucket x.name lprime) ⟨c, l⟩ = .ok ((), ⟨c1, l1⟩) ∧ Course env p c l c1 l1 ∧ q ∈ c1.qlist ∧
            (behind q c1.qlist).length ≤ suf.length ∧ (p.Careful ∨ c1 = c) := by
          rcases hk with hk | hk
          · obtain ⟨c1, l1, e1, s1, a1⟩ := cExpireCb_ok (env := env) hp (bucket x.name lprime) h
            obtain ⟨_, k1, k2⟩ := a1 hk q x.name rfl ⟨x, hx, rfl⟩ hm
            exact ⟨c1, l1, e1, s1.course, k1, by rw [hb] at k2; exact k2, .inl hk⟩
          · refine ⟨c, l, ?_, .nil h, hm, by rw [hb]; exact Nat.le_refl _, .inr rfl⟩
            unfold cExpireCb
            rw [M.bind_ok core_ok]
            exact cExpireFCb_unexpired env p _ _ 0 c l (hk q (by simp) x hx h3 hi) (by omega)
        obtain ⟨c1, l1, e1, t1, m1, b1, k1⟩ := e0
        have i1 := t1.inv
        obtain ⟨x1, hx1⟩ := i1.cinv.qlist q m1
        rw [M.bind_ok e1, M.bind_ok (cacheM_ok (qReset_eq hx1)), M.bind_ok core_ok]
        obtain ⟨pre1, hp1⟩ := behind_mem m1
        have i2 : DInv (c1.resetQ q x1) l1 := ⟨i1.cinv.resetQ hx1, i1.rinv.congr rfl rfl rfl⟩
        obtain ⟨r, c2, l2, e2, t2⟩ := updateLoopCb_ok hp fuel (behind q c1.qlist) m best ret (c1.resetQ q x1) l1 i2 (by
            rcases k1 with k1 | rfl
            · exact .inl k1
            · rw [hb]
              exact hk.imp_right fun u => u.setQ (split_nodup hnd).2 rfl rfl rfl)
          ⟨pre1 ++ [q], by show c1.qlist = _; simp [← hp1]⟩ (by omega)
        exact ⟨r, c2, l2, e2, (t1.trans (.one i1 i2 rfl (.refl _))).trans t2⟩
      · rw [if_neg h3, M.bind_ok modC_ok, M.bind_ok core_ok]
        obtain ⟨r, c2, l2, e2, i2⟩ := updateLoopCb_ok hp fuel suf (knownLoop (c.askedQ q x) x (c.chain x.name) m)
          (if best = 0 ∨ c.now.sec + (x.tries + 1) < best then c.now.sec + (x.tries + 1) else best) (ret + 1) (c.askedQ q x) l
          ⟨h.cinv.askedQ hx, h.rinv.congr rfl rfl rfl⟩
          (hk.imp_right fun u => u.setQ (split_nodup hnd).2 rfl rfl rfl) ⟨pre ++ [q], by show c.qlist = _; simp [hl]⟩ hf
        refine ⟨r, c2, l2, ?_, .quiet (c1 := c.askedQ q x) h rfl (.refl _) i2⟩
        show updateLoopCb env p fuel (behind q c.qlist).head? _ _ _ _ = _
        rw [hb]
        exact e2

theorem outQuestionsCb_ok {env : Env} {p : Callbacks} (hp : p.Polite env) {m : Out} {c : Core} {l : Lists} (h : DInv c l)
    (hk : p.Careful ∨ c.Unexpired c.qlist) : ∃ r c' l', outQuestionsCb env p m ⟨c, l⟩ = .ok (r, ⟨c', l'⟩) ∧ Course env p c l c' l' := by
  unfold outQuestionsCb
  rw [M.bind_ok core_ok]
  split
  · obtain ⟨⟨m', best, ret⟩, c', l', e, i⟩ := updateLoopCb_ok hp c.qlist.length c.qlist (m.add ((c.dueQs c.qlist).map c.questionOf))
      ((c.qlist.filterMap c.qs).foldl c.nextBest 0) 0 c l h hk ⟨[], rfl⟩ (Nat.le_refl _)
    rw [M.bind_ok (liftC_ok (c' := c) (by rw [askLoop_ok _ _ _ h.cinv.qlist]; rfl))]
    dsimp only
    rw [M.bind_ok e]
    dsimp only
    exact ⟨_, _, _, rfl, i.trans (.one i.inv (i.inv.congr rfl rfl rfl rfl rfl rfl rfl rfl rfl) rfl (.refl _))⟩
  · exact ⟨_, _, _, rfl, .nil h⟩

/-- The part of `mdnsd_out` that calls callbacks. -/
def Onward (env : Env) (p : Callbacks) (c c' : Core) (l' : Lists) : Prop := ∃ c0 l0, c0.log = c.log ∧ Course env p c0 l0 c' l'

theorem Onward.none {env : Env} {p : Callbacks} {c c' : Core} {l' : Lists} (i : DInv c' l') (h : c'.log = c.log) : Onward env p c c' l' :=
  ⟨c', l', h, .nil i⟩

theorem outRestCb_ok {env : Env} {p : Callbacks} (hp : p.Polite env) {s : OSt} (hk : p.Careful ∨ s.c.Unexpired s.c.qlist) (h : CInv s.c)
    (hr : RInv s.c s.l) (hs : SeenOk s.c s.seen) :
    ∃ r c' l', outRestCb env p s.m s.seen s.ret ⟨s.c, s.l⟩ = .ok (r, ⟨c', l'⟩) ∧ Onward env p s.c c' l' := by
  unfold outRestCb
  rw [M.bind_ok qFuel_ok, M.bind_ok core_ok, M.bind_ok qHead_ok]
  have e1 : ∃ s1 : OSt, (if (s.l.q .pause).head? ≠ none ∧ tvdiff s.c.now s.c.pause ≤ 0 then
        rOut .pause s.l.size s.m s.seen s.ret else pure (s.m, s.seen, s.ret) : M Lists _) ⟨s.c, s.l⟩ =
      .ok ((s1.m, s1.seen, s1.ret), ⟨s1.c, s1.l⟩) ∧ PauseOpt s s1 := by
    split
    · rename_i hc
      obtain ⟨t, e, n⟩ := rOut_ok (w := .pause) (by simp) s.l.size s hr (hr.length_le _)
      exact ⟨t, e, .yes (head_ne_none.mp hc.1) hc.2 n⟩
    · rename_i hc
      refine ⟨s, rfl, .no hr ?_⟩
      rw [← head_ne_none]
      exact hc
  obtain ⟨s1, e1, np⟩ := e1
  have hse : ∀ r ∈ s1.seen, ∃ x, s1.c.recs r = some x := fun r mr => by
    obtain ⟨x, hx, _⟩ := np.seenOk hs r mr
    exact ⟨x, hx⟩
  obtain ⟨m', seen', e2, na⟩ := additionals_ok np.inv s1.seen s1.m s1.seen hse
  rw [ite_bind, M.bind_ok e1]
  dsimp only
  rw [M.bind_ok e2]
  dsimp only
  split
  · exact ⟨_, _, _, rfl, .none ⟨h.recfree np.recfree, np.inv⟩ (recfree_log np.recfree)⟩
  · rename_i h0
    have h0 : s1.ret = 0 := by simpa using h0
    obtain ⟨s2, e3, nb⟩ := outProbe_ok (s := { s1 with m := { m' with qr := false, aa := false } }) np.inv h0
    rw [M.bind_ok e3]
    dsimp only
    have hrf : s2.c.recfree = s.c.recfree := nb.recfree.trans np.recfree
    split
    · exact ⟨_, _, _, rfl, .none ⟨h.recfree hrf, nb.inv⟩ (recfree_log hrf)⟩
    · obtain ⟨⟨m3, ret3⟩, c3, l3, e4, i3⟩ := outQuestionsCb_ok (env := env) hp (m := s2.m) ⟨h.recfree hrf, nb.inv⟩
        (hk.imp_right fun u => u.recfree hrf)
      rw [M.bind_ok e4]
      dsimp only
      rw [M.bind_ok core_ok]
      split
      · obtain ⟨c4, l4, e5, i4, _⟩ := gcCb_ok (env := env) hp i3.inv
        rw [M.bind_ok e5]
        exact ⟨_, _, _, rfl, s2.c, s2.l, recfree_log hrf, i3.trans i4⟩
      · exact ⟨_, _, _, rfl, s2.c, s2.l, recfree_log hrf, i3⟩

/-- `mdnsd_out` ends normally. -/
theorem outMsgCb_ok {env : Env} {p : Callbacks} (hp : p.Polite env) {c : Core} {l : Lists} (h : DInv c l) (now : TV)
    (hk : p.Careful ∨ ({ c with now := now } : Core).Unexpired c.qlist) :
    ∃ r c' l', outMsgCb env p now ⟨c, l⟩ = .ok (r, ⟨c', l'⟩) ∧ Onward env p c c' l' := by
  have h' : DInv { c with now := now } l := ⟨h.cinv.congr rfl rfl rfl rfl rfl rfl, h.rinv.congr rfl rfl rfl⟩
  unfold outMsgCb
  rw [M.bind_ok modC_ok]
  have hk : p.Careful ∨ ({ c with now := now } : Core).Unexpired ({ c with now := now } : Core).qlist := hk
  have hlog : ({ c with now := now } : Core).log = c.log := rfl
  generalize ({ c with now := now } : Core) = c0 at h' hk hlog ⊢
  rw [M.bind_ok core_ok]
  cases hu : c0.uanswers with
  | cons u us =>
    dsimp only
    obtain ⟨x, hx⟩ := Option.isSome_iff_exists.mp (h'.rinv.uans u (by rw [hu]; simp))
    obtain ⟨m, seen, e, na, nf⟩ := outUnicast_ok h'.rinv hu hx
    refine ⟨(1, m, u.to), { c0 with uanswers := us, recs := upd c0.recs u.r (some { x with lastSent := c0.now }) }, l, ?_,
      .none ⟨h'.cinv.recfree rfl, ?_⟩ hlog⟩
    · rw [M.bind_ok e]
      rfl
    · have h1 : RInv { c0 with uanswers := us } l := h'.rinv.dropUnicast hu
      exact h1.setRec hx rfl rfl (h'.rinv.conf _ x hx) (h'.rinv.tries _ x hx) (h'.rinv.ptries _ x hx)
  | nil =>
    dsimp only
    rw [M.bind_ok qFuel_ok]
    obtain ⟨s1, e1, n1⟩ := rOut_ok (w := .now) (by simp) l.size ⟨c0, l, {}, [], 0⟩ h'.rinv (h.rinv.length_le _)
    obtain ⟨s2, e2, n2⟩ := outPublish_ok n1.inv
    have hrf : s2.c.recfree = c0.recfree := n2.recfree.trans n1.recfree
    rw [M.bind_ok e1]
    dsimp only
    rw [M.bind_ok e2]
    dsimp only
    cases hs : c0.shutdown with
    | true =>
      refine ⟨(s2.ret, s2.m, mcast c0.family), s2.c, s2.l, ?_, .none ⟨h'.cinv.recfree hrf, n2.inv⟩ ((recfree_log hrf).trans hlog)⟩
      rw [if_pos rfl]
      rfl
    | false =>
      rw [if_neg (by simp)]
      obtain ⟨⟨ret, m⟩, c', l', e3, i3⟩ := outRestCb_ok hp (s := s2) (hk.imp_right fun u => u.recfree hrf) (h'.cinv.recfree hrf) n2.inv
        (n2.seenOk (n1.seenOk (.nil _)))
      obtain ⟨cs, ls, hls, i3⟩ := i3
      exact ⟨(ret, m, mcast c0.family), c', l', by rw [M.bind_ok e3]; rfl, cs, ls, (hls.trans (recfree_log hrf)).trans hlog, i3⟩

end Mdns
