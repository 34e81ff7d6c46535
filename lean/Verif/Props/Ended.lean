import Verif.Lemmas.Asking
import Verif.Props.Ending

/-!
# C105: what callbacks ask for with `mdnsd_query` happens
-/

namespace Mdns

set_option linter.unusedSectionVars false

open M

/-- The callback registered for `host` and `type` after these calls of `mdnsd_query`: that of the last call for them, if there is one. -/
def lastCall (host : Bytes) (type : Nat) : List (Bytes × Nat × Option Nat) → Option Nat → Option Nat
  | [], old => old
  | x :: l, old => lastCall host type l (if x.1 = host ∧ x.2.1 = type then x.2.2 else old)

/-- The events between two histories: other events, and calls of answer callbacks, where what the callback asks for is registered before anything
else happens. -/
inductive Said (p : Prog) (l : List Event) : List Event → Prop
  | refl : Said p l l
  | other {m : List Event} {e : Event} (h : Said p l m) (he : ∀ q cb rr, e ≠ .answer q cb rr) : Said p l (m ++ [e])
  | call {m mid : List Event} {q cb : Nat} {rr : Answer} (h : Said p l m) (hm : ∀ e ∈ mid, ∀ q cb rr, e ≠ .answer q cb rr)
      (hc : ∀ host type, callback (m ++ .answer q cb rr :: mid) host type =
        lastCall host type (p (m ++ [.answer q cb rr])).calls (callback m host type)) : Said p l (m ++ .answer q cb rr :: mid)

theorem Said.trans {p : Prog} {a b c : List Event} (h : Said p a b) (h' : Said p b c) : Said p a c := by
  induction h' with
  | refl => exact h
  | other _ he ih => exact ih.other he
  | call _ hm hc ih => exact ih.call hm hc

theorem Said.others {p : Prog} {l m : List Event} (h : Said p l m) : ∀ (evs : List Event), (∀ e ∈ evs, ∀ q cb rr, e ≠ .answer q cb rr) →
    Said p l (m ++ evs)
  | [], _ => by rw [List.append_nil]; exact h
  | e :: evs, he => by
    have := (h.other (he e (by simp))).others evs fun e m => he e (by simp [m])
    rw [List.append_assoc] at this
    exact this

theorem Said.still {p : Prog} {c c' : Core} {evs : List Event} (h : Still c c' evs) : Said p c.log c'.log := by
  rw [h.log]
  refine Said.refl.others _ fun e m q cb rr he => ?_
  have := h.quiet e m
  rw [he] at this
  exact this

/-- After each call of an answer callback between two histories. -/
theorem Said.after {p : Prog} {l l' : List Event} (h : Said p l l') : ∀ {pre post : List Event} {q cb : Nat} {rr : Answer},
    l' = pre ++ .answer q cb rr :: post → l.length ≤ pre.length →
    ∃ mid post', post = mid ++ post' ∧ (∀ e ∈ mid, ∀ q cb rr, e ≠ .answer q cb rr) ∧
      ∀ host type, callback (pre ++ .answer q cb rr :: mid) host type =
        lastCall host type (p (pre ++ [.answer q cb rr])).calls (callback pre host type) := by
  induction h with
  | refl =>
    intro pre post q cb rr e hl
    have := congrArg List.length e
    simp at this
    omega
  | @other m e _ he ih =>
    intro pre post q cb rr e' hl
    rcases List.eq_nil_or_concat post with rfl | ⟨s, e1, rfl⟩
    · obtain ⟨_, h2⟩ := List.append_inj' e' rfl
      cases h2
      exact absurd rfl (he q cb rr)
    · have e2 : m ++ [e] = (pre ++ .answer q cb rr :: s) ++ [e1] := by rw [e']; simp
      obtain ⟨rfl, _⟩ := List.append_inj' e2 rfl
      obtain ⟨mid, post', rfl, h3⟩ := ih rfl hl
      exact ⟨mid, post' ++ [e1], by simp, h3⟩
  | @call m mid q0 cb0 rr0 h hm hc ih =>
    intro pre post q cb rr e' hl
    rcases List.append_eq_append_iff.mp e' with ⟨as, h1, h2⟩ | ⟨bs, h1, h2⟩
    · cases as with
      | nil =>
        rw [List.append_nil] at h1
        subst h1
        cases h2
        exact ⟨mid, [], by simp, hm, hc⟩
      | cons a as =>
        simp only [List.cons_append, List.cons.injEq] at h2
        exact absurd rfl (hm (.answer q cb rr) (by rw [h2.2]; simp) q cb rr)
    · cases bs with
      | nil =>
        rw [List.append_nil] at h1
        subst h1
        cases h2
        exact ⟨mid, [], by simp, hm, hc⟩
      | cons b bs =>
        simp only [List.cons_append, List.cons.injEq] at h2
        obtain ⟨rfl, h2⟩ := h2
        obtain ⟨mid', post', rfl, h3⟩ := ih h1 hl
        exact ⟨mid', post' ++ .answer q0 cb0 rr0 :: mid, by rw [h2]; simp, h3⟩

/-! ### The cache -/

theorem CInv.calls_log : ∀ (l : List (Bytes × Nat × Option Nat)) {c c' : Core}, CInv c → c.calls l = .ok c' →
    ∃ mid, c'.log = c.log ++ mid ∧ (∀ e ∈ mid, ∀ q cb rr, e ≠ Event.answer q cb rr) ∧
      ∀ host type, callback c'.log host type = lastCall host type l (callback c.log host type)
  | [], c, c', _, e => by
    cases e
    exact ⟨[], by simp, by simp, fun _ _ => rfl⟩
  | (h0, t0, a) :: l, c, c', h, e => by
    have key : ∃ c1 mid, c.query h0 t0 a = .ok c1 ∧ CInv c1 ∧ c1.log = c.log ++ mid ∧ (∀ e ∈ mid, ∀ q cb rr, e ≠ Event.answer q cb rr) ∧
        ∀ host type, callback c1.log host type = if h0 = host ∧ t0 = type then a else callback c.log host type := by
      cases a with
      | none =>
        obtain ⟨c1, e, n, h1, h2⟩ := h.queryOff h0 t0
        rcases h1 with h1 | rfl
        · refine ⟨c1, _, e, n.inv, h1, by simp, fun host type => ?_⟩
          rw [h1, callback_append_unregistered]
        · refine ⟨c1, [], e, n.inv, by simp, by simp, fun host type => ?_⟩
          split
          · rename_i hh
            rw [← hh.1, ← hh.2]
            exact h2
          · rfl
      | some cb =>
        obtain ⟨c1, e, n, h1⟩ := h.queryOn h0 t0 cb
        refine ⟨c1, _, e, n.inv, h1, by simp, fun host type => ?_⟩
        rw [h1, callback_append_registered]
    obtain ⟨c1, m1, e1, i1, l1, q1, k1⟩ := key
    unfold Core.calls at e
    rw [e1] at e
    obtain ⟨m2, l2, q2, k2⟩ := CInv.calls_log l i1 e
    refine ⟨m1 ++ m2, by rw [l2, l1, List.append_assoc], fun e m => ?_, fun host type => ?_⟩
    · rcases List.mem_append.mp m with m | m
      · exact q1 e m
      · exact q2 e m
    · rw [k2, k1]
      rfl

theorem callback_answer_cons (t : List Event) (q cb : Nat) (rr : Answer) (mid : List Event) (host : Bytes) (type : Nat) :
    callback (t ++ .answer q cb rr :: mid) host type = callback ((t ++ [.answer q cb rr]) ++ mid) host type := by
  rw [List.append_assoc]
  rfl

theorem CInv.callAnswerE_said {c c' : Core} (h : CInv c) {p : Prog} {q : Nat} {x : Query} {rr : Answer} {b : Bool}
    (hx : c.qs q = some x) (hn : x.name = rr.name) (ht : typeFits x.type rr) (e : c.callAnswerE p q rr = .ok (b, c')) :
    Said p c.log c'.log := by
  have h1 : CInv { c with log := c.log ++ [.answer q x.cb (c.seen rr)] } := by
    apply h.addAnswer hx
    · rw [hn]; unfold Core.seen; split <;> rfl
    · unfold Core.seen; split <;> exact ht
  have e2 : c.callAnswerE p q rr =
      match ({ c with log := c.log ++ [.answer q x.cb (c.seen rr)] } : Core).calls (p (c.log ++ [.answer q x.cb (c.seen rr)])).calls with
      | .ok c' => .ok ((p (c.log ++ [.answer q x.cb (c.seen rr)])).stop, c')
      | .ub => .ub
      | .hang => .hang := by
    unfold Core.callAnswerE
    rw [hx]
    rfl
  rw [e] at e2
  split at e2
  · rename_i c1 e3
    cases e2
    obtain ⟨mid, l1, q1, k1⟩ := h1.calls_log _ e3
    have l2 : c'.log = c.log ++ .answer q x.cb (c.seen rr) :: mid := by
      rw [l1]
      show (c.log ++ _) ++ mid = _
      simp
    rw [l2]
    refine Said.refl.call q1 fun host type => ?_
    rw [← l2, k1]
    exact congrArg _ (callback_append_answer _ _ _ _ _ _)
  · cases e2
  · cases e2

theorem qDone_said {p : Prog} {c c' : Core} {q : Nat} (e : c.qDone q = .ok c') : Said p c.log c'.log := by
  unfold Core.qDone at e
  split at e
  · cases e
  · dsimp only at e
    split at e
    · cases e
      exact Said.refl.other (by simp)
    · cases e

theorem CInv.qAnswerE_said {c c' : Core} (h : CInv c) {p : Prog} (hp : p.Polite) (e : Cached)
    (he : ∀ q, e.q = some q → ∃ x, c.qs q = some x ∧ x.name = e.rr.name ∧ typeFits x.type e.rr) (hc : c.qAnswerE p e = .ok c') :
    Said p c.log c'.log := by
  unfold Core.qAnswerE at hc
  cases hq : e.q with
  | none =>
    rw [hq] at hc
    cases hc
    exact .refl
  | some q =>
    obtain ⟨x, hx, e1, e2⟩ := he q hq
    obtain ⟨b, c1, f1, _⟩ := h.callAnswerE hp hx e1 e2
    rw [hq] at hc
    dsimp only at hc
    rw [f1] at hc
    have s1 := h.callAnswerE_said hx e1 e2 f1
    cases b with
    | false => cases hc; exact s1
    | true => exact s1.trans (qDone_said hc)

theorem CInv.erased {c : Core} (h : CInv c) (i k : Nat) : CInv { c with cache := upd c.cache i ((c.cache i).eraseIdx k) } := by
  refine h.withCache _ (fun j e' m => ?_) (fun j => ?_)
  · simp only [upd] at m
    split at m
    · rename_i hj
      exact ⟨e', hj ▸ List.mem_of_mem_eraseIdx m, rfl, rfl, rfl⟩
    · exact ⟨e', m, rfl, rfl, rfl⟩
  · simp only [upd]
    split
    · exact (h.cuniq i).sublist (List.eraseIdx_sublist _ _)
    · exact h.cuniq j

theorem CInv.cExpireFE_said {p : Prog} (hp : p.Polite) (i : Nat) : ∀ (fuel k : Nat) {c c' : Core}, CInv c →
    Core.cExpireFE p i fuel k c = .ok c' → Said p c.log c'.log
  | 0, _, _, _, _, e => by cases e
  | fuel + 1, k, c, c', h, e => by
    unfold Core.cExpireFE at e
    cases hk : (c.cache i)[k]? with
    | none =>
      rw [hk] at e
      cases e
      exact .refl
    | some x =>
      rw [hk] at e
      dsimp only at e
      split at e
      · have hf : ∀ q, x.q = some q → ∃ y, c.qs q = some y ∧ y.name = x.rr.name ∧ typeFits y.type x.rr :=
          fun q hq => h.cq i x q (List.mem_of_getElem? hk) hq
        obtain ⟨c1, e1, s1⟩ := (h.erased i k).qAnswerE hp x hf
        rw [e1] at e
        have h1 := (h.erased i k).qAnswerE_said hp x hf e1
        exact Said.trans (b := c1.log) h1 (CInv.cExpireFE_said hp i fuel k s1.inv e)
      · exact CInv.cExpireFE_said hp i fuel (k + 1) h e

theorem CInv.zapE_said {c c' : Core} (h : CInv c) {p : Prog} (hp : p.Polite) (i : Nat) (f : Answer → Bool)
    (e : (c.zeroed i f).cExpireE p i = .ok c') : Said p c.log c'.log :=
  CInv.cExpireFE_said (c := c.zeroed i f) hp i _ _ (h.zeroed i f) e

theorem CInv.deleteE_said {p : Prog} (hp : p.Polite) {r : Resource} (hr : r.WF) : ∀ (fuel : Nat) {c c' : Core}, CInv c →
    Core.deleteFE p r (bucket r.name lprime) fuel c = .ok c' → Said p c.log c'.log
  | 0, _, _, _, e => by cases e
  | fuel + 1, c, c', h, e => by
    unfold Core.deleteFE at e
    cases hf : (c.cache (bucket r.name lprime)).findIdx? (fun e => hit r e.rr) with
    | none =>
      have hf' : (c.cache (bucket r.name lprime)).findIdx? (fun e => e.rr.is r.name r.type && aMatch r e.rr) = none := hf
      rw [hf'] at e
      cases e
      exact .refl
    | some k =>
      have hf' : (c.cache (bucket r.name lprime)).findIdx? (fun e => e.rr.is r.name r.type && aMatch r e.rr) = some k := hf
      rw [hf'] at e
      dsimp only at e
      have hm : (c.modEntry (bucket r.name lprime) k fun e => { e with rr := { e.rr with ttl := 0 } }) =
          c.zeroed (bucket r.name lprime) (hit r) := by
        unfold Core.modEntry Core.zeroed
        rw [modify_eq_map _ (fun e => hit r e.rr) _ k hf (h.hit_once hr _)]
        rfl
      rw [hm] at e
      obtain ⟨c1, e1, hz⟩ := h.zapE hp (bucket r.name lprime) (hit r)
      rw [e1] at e
      exact (h.zapE_said hp _ _ e1).trans (CInv.deleteE_said hp hr fuel hz.inv e)

theorem CInv.insertE_said {c c' : Core} (h : CInv c) {p : Prog} (hp : p.Polite) {r : Resource} (hr : r.WF) {src : Addr}
    (e : c.insertE p r src = .ok c') : Said p c.log c'.log := by
  have hins : c.insertE p r src =
      match (c.cache (bucket r.name lprime)).findIdx? (fun e => hit r e.rr) with
      | some k => .ok (c.modEntry (bucket r.name lprime) k fun e => { e with rr := { e.rr with ttl := c.expiry r } })
      | none =>
        match c.qFind r.name r.type with
        | .ok q =>
          match q with
          | none => .ok (c.setChain (bucket r.name lprime)
              ({ rr := Core.newEntry r src (c.expiry r), q := q } :: c.cache (bucket r.name lprime)))
          | some q0 =>
            match (c.setChain (bucket r.name lprime)
              ({ rr := Core.newEntry r src (c.expiry r), q := q } :: c.cache (bucket r.name lprime))).callAnswerE
                p q0 (Core.newEntry r src (c.expiry r)) with
            | .ok (stop, c) =>
              if stop then
                match (c.cache (bucket r.name lprime)).head? with
                | some { q := some q', .. } => c.qDone q'
                | _ => .ub
              else .ok c
            | .ub => .ub
            | .hang => .hang
        | .ub => .ub
        | .hang => .hang := rfl
  rw [hins] at e
  split at e
  · cases e; exact .refl
  · rename_i hf
    obtain ⟨o, h1, h2, _⟩ := h.qFind r.name r.type
    rw [h1] at e
    cases o with
    | none => cases e; exact .refl
    | some q =>
      obtain ⟨x, hx, e1, e2⟩ := h2 q rfl
      have hi := h.linked hr hf hx e1 e2 (src := src)
      dsimp only at e
      obtain ⟨b, c2, f1, _⟩ := hi.callAnswerE hp (rr := Core.newEntry r src (c.expiry r))
        (show c.qs q = some x from hx) (by rw [newEntry_name]; exact e1) (.inl (by rw [newEntry_type]; exact e2))
      have s1 := hi.callAnswerE_said (rr := Core.newEntry r src (c.expiry r))
        (show c.qs q = some x from hx) (by rw [newEntry_name]; exact e1) (.inl (by rw [newEntry_type]; exact e2)) f1
      have s2 : Said p c.log c2.log := s1
      rw [f1] at e
      dsimp only at e
      split at e
      · split at e
        · exact s2.trans (qDone_said e)
        · cases e
      · cases e; exact s2

theorem CInv.cacheInE_said {c c' : Core} (h : CInv c) {p : Prog} (hp : p.Polite) {r : Resource} (hr : r.WF) {src : Addr}
    (e : c.cacheInE p r src = .ok c') : Said p c.log c'.log := by
  have hfl : ∃ c1, c.flushE p r = .ok c1 ∧ CInv c1 ∧ Said p c.log c1.log := by
    have e0 : c.flushE p r = if r.cls = 32768 + c.cls then
        (c.zeroed (bucket r.name lprime) fun a => a.is r.name r.type).cExpireE p (bucket r.name lprime) else .ok c := rfl
    rw [e0]
    by_cases hc : r.cls = 32768 + c.cls
    · obtain ⟨c1, e, hz⟩ := h.zapE hp (bucket r.name lprime) fun a => a.is r.name r.type
      exact ⟨c1, by rw [if_pos hc]; exact e, hz.inv, h.zapE_said hp _ _ e⟩
    · exact ⟨c, by rw [if_neg hc], h, .refl⟩
  obtain ⟨c1, e1, i1, s1⟩ := hfl
  unfold Core.cacheInE at e
  rw [e1] at e
  dsimp only at e
  split at e
  · exact s1.trans (CInv.deleteE_said hp hr _ i1 e)
  · exact s1.trans (i1.insertE_said hp hr e)

theorem CInv.gcE_said {c c' : Core} (h : CInv c) {p : Prog} (hp : p.Polite) (e : c.gcE p = .ok c') : Said p c.log c'.log := by
  have key : ∀ n {c c' : Core}, CInv c → Core.gcE.go p n c = .ok c' → Said p c.log c'.log := by
    intro n
    induction n with
    | zero => intro c c' _ e; cases e; exact .refl
    | succ n ih =>
      intro c c' h e
      obtain ⟨c1, e1, s1⟩ := h.cExpireE hp (lprime - (n + 1))
      unfold Core.gcE.go at e
      rw [e1] at e
      exact (CInv.cExpireFE_said hp _ _ _ h e1).trans (ih s1.inv e)
  unfold Core.gcE at e
  split at e
  · rename_i c1 e1
    cases e
    have := key _ h e1
    exact this
  · cases e
  · cases e

/-! ### A packet -/

theorem restE_said {p : Prog} (hp : p.Polite) {src : Addr} {a : Resource} (ha : a.WF) {c c' : Core} {l l' : Lists}
    (h : DInv c l) (e : inAnswerE.rest p src a ⟨c, l⟩ = .ok ((), ⟨c', l'⟩)) : Said p c.log c'.log := by
  obtain ⟨c1, e2, _⟩ := (h.cinv.received a).cacheInE hp ha src
  have e3 : inAnswerE.rest p src a ⟨c, l⟩ = .ok ((), ⟨c1, l⟩) := by
    unfold inAnswerE.rest
    rw [M.bind_ok modC_ok]
    have e0 : (if c.recvCb = true then { c with log := c.log ++ [Event.received a] } else c) = c.received a := by
      unfold Core.received
      split
      · rfl
      · exact (heard_nil c).symm
    rw [e0]
    refine liftC_ok ?_
    rw [e2]
    rfl
  rw [e] at e3
  cases e3
  obtain ⟨evs, hs⟩ := received_still c a
  exact (Said.still hs).trans ((h.cinv.received a).cacheInE_said hp ha e2)

theorem inAnswerE_said {env : Env} {p : Prog} (hp : p.Polite) {src : Addr} {a : Resource} (ha : a.WF) {did did' : Bool} {c c' : Core}
    {l l' : Lists} (h : DInv c l) (e : inAnswerE env p src a did ⟨c, l⟩ = .ok (did', ⟨c', l'⟩)) : Said p c.log c'.log := by
  have hk : ∀ r x, c.recs r = some x → x.unique ≠ 0 →
      ansK env src (inAnswerE.rest p src a) did (some r) ⟨c, l⟩ = .ok (did', ⟨c', l'⟩) → Said p c.log c'.log := by
    intro r x hx hu e
    have e1 : ∃ c1 : Core, ansK env src (inAnswerE.rest p src a) did (some r) ⟨c, l⟩ = (do
        if ← isLocal env src then pure true
        else do
          Mdns.conflict r
          inAnswerE.rest p src a
          pure true : M Lists Bool) ⟨c1, l⟩ ∧ Locals env c c1 := by
      cases did with
      | true => exact ⟨c, rfl, .refl c⟩
      | false => exact ⟨refreshLocals env true c, rfl, refreshLocals_locals env true c⟩
    obtain ⟨c1, e1, l1⟩ := e1
    rw [e1] at e
    obtain ⟨b, c2, e2, l2, _⟩ := isLocal_ok env src c1 l
    rw [M.bind_ok e2] at e
    have hl2 := l1.trans l2
    cases b with
    | true => cases e; exact Said.still hl2.still
    | false =>
      have hx2 : c2.recs r = some x := by rw [hl2.recs]; exact hx
      have hd := done_inv h hl2 hx2
      obtain ⟨c3, e3, _⟩ := restE_ok (src := src) hp ha hd
      rw [if_neg (by simp), M.bind_ok (conflict_ok (hl2.rinv h.rinv) hx2 hu)] at e
      rw [M.bind_ok e3] at e
      cases e
      have h1 := Still.heard c2 (evs := [.conflict r x.rr.name x.rr.type]) (by simp [Event.quiet])
      have f := (hl2.still.trans h1).trans (Still.recfree (doneSt_recfree (c2.heard [.conflict r x.rr.name x.rr.type]) l r x))
      exact (Said.still f).trans (restE_said hp ha hd e3)
  have hn : ansK env src (inAnswerE.rest p src a) did none ⟨c, l⟩ = .ok (did', ⟨c', l'⟩) → Said p c.log c'.log := by
    intro e
    obtain ⟨c1, e1, _⟩ := restE_ok (src := src) hp ha h
    have e2 : ansK env src (inAnswerE.rest p src a) did none ⟨c, l⟩ = .ok (did, ⟨c1, l⟩) := (M.bind_ok e1).trans rfl
    rw [e] at e2
    cases e2
    exact restE_said hp ha h e1
  rw [inAnswerE_eq] at e
  unfold ansW at e
  rw [M.bind_ok (rFirst_ok h.rinv _ _)] at e
  cases hm : (c.matching a.name a.type).head? with
  | none =>
    rw [hm] at e
    exact hn e
  | some r =>
    have : r ∈ c.matching a.name a.type := List.mem_of_head? hm
    obtain ⟨x, hx, _⟩ := isRec_name (List.mem_filter.mp this).2
    rw [hm] at e
    dsimp only at e
    rw [M.bind_ok (getRec_ok hx)] at e
    by_cases hu : x.unique ≠ 0 ∧ x.modified = true ∧ aMatch a x.rr = true
    · rw [if_pos hu] at e
      exact hk r x hx hu.1 e
    · rw [if_neg hu] at e
      exact hn e

theorem inAnswersE_said {env : Env} {p : Prog} (hp : p.Polite) {src : Addr} :
    ∀ (as : List Resource) (did : Bool) {c c' : Core} {l l' : Lists}, (∀ a ∈ as, a.WF) → DInv c l →
      inAnswersE env p src as did ⟨c, l⟩ = .ok ((), ⟨c', l'⟩) → Said p c.log c'.log
  | [], _, c, c', l, l', _, _, e => by cases e; exact .refl
  | a :: as, did, c, c', l, l', ha, h, e => by
    obtain ⟨did', c1, l1, e1, h1⟩ := inAnswerE_ok (env := env) (src := src) hp (ha a (by simp)) (did := did) h
    unfold inAnswersE at e
    rw [M.bind_ok e1] at e
    exact (inAnswerE_said hp (ha a (by simp)) h e1).trans (inAnswersE_said hp as did' (fun a m => ha a (by simp [m])) h1 e)

theorem inMsgE_said {env : Env} {p : Prog} (hp : p.Polite) {now : TV} {m : Msg} {src : Addr}
    (hw : ∀ a ∈ m.an, a.WF) {c c' : Core} {l l' : Lists} {ret : Nat} (h : DInv c l)
    (e : inMsgE env p now m src ⟨c, l⟩ = .ok (ret, ⟨c', l'⟩)) : Said p c.log c'.log := by
  unfold inMsgE at e
  rw [M.bind_ok core_ok] at e
  cases hs : c.shutdown with
  | true =>
    rw [hs] at e
    cases e
    exact .refl
  | false =>
    rw [hs, if_neg (by simp), M.bind_ok modC_ok] at e
    have h0 := h.atNow now
    obtain ⟨b, c1, e1, hl, _⟩ := isLocal_ok env src { c with now := now } l
    have h1 : DInv c1 l := ⟨hl.cinv h0.cinv, hl.rinv h0.rinv⟩
    have s1 : Said p c.log c1.log := Said.still (c := { c with now := now }) hl.still
    rw [M.bind_ok e1] at e
    cases b with
    | true => cases e; exact s1
    | false =>
      cases hq : m.header.qr with
      | false =>
        obtain ⟨c2, l2, e2, n⟩ := inQuestions_ok (env := env) (m := m) (src := src) m.qd false h1
        rw [hq] at e
        have e3 := (M.bind_ok (f := fun _ => (pure 0 : M Lists Nat)) e2).symm.trans e
        cases e3
        obtain ⟨evs, hs⟩ := n.still
        exact s1.trans (Said.still hs)
      | true =>
        obtain ⟨c2, l2, e2, n⟩ := inAnswersE_ok (env := env) (src := src) hp m.an false hw h1
        rw [hq] at e
        have e3 := (M.bind_ok (f := fun _ => (pure 0 : M Lists Nat)) e2).symm.trans e
        cases e3
        exact s1.trans (inAnswersE_said hp m.an false hw h1 e2)

/-! ### What is sent -/

/-- A callback told that a record is gone does not return -1, and ends no query for that name, nor for names with the same hash, with
`mdnsd_query`. -/
def Prog.Careful (p : Prog) : Prop := ∀ log q cb rr, rr.ttl = 0 → (p (log ++ [.answer q cb rr])).stop = false ∧
  ∀ x ∈ (p (log ++ [.answer q cb rr])).calls, x.2.2 = none → bucket x.1 lprime ≠ bucket rr.name lprime

/-- The query `q` for the name `n` stays, and no query comes to be behind it. -/
def Abides (q : Nat) (n : Bytes) (c c' : Core) : Prop := (∃ x, c.qs q = some x ∧ x.name = n) → q ∈ c.qlist →
  (∃ x, c'.qs q = some x ∧ x.name = n) ∧ q ∈ c'.qlist ∧ (behind q c'.qlist).length ≤ (behind q c.qlist).length

theorem Abides.refl (q : Nat) (n : Bytes) (c : Core) : Abides q n c c := fun h m => ⟨h, m, Nat.le_refl _⟩

theorem Abides.trans {q : Nat} {n : Bytes} {a b c : Core} (h : Abides q n a b) (h' : Abides q n b c) : Abides q n a c := by
  intro hx m
  obtain ⟨h1, h2, h3⟩ := h hx m
  obtain ⟨k1, k2, k3⟩ := h' h1 h2
  exact ⟨k1, k2, Nat.le_trans k3 h3⟩

theorem behind_erase {q q' : Nat} (hq : q' ≠ q) : ∀ l : List Nat, (behind q (l.erase q')).length ≤ (behind q l).length
  | [] => Nat.le_refl _
  | a :: l => by
    have ih := behind_erase hq l
    by_cases ha : a = q'
    · subst ha
      rw [List.erase_cons_head]
      have : behind q (a :: l) = behind q l := by
        unfold behind
        rw [List.dropWhile_cons_of_pos (by simpa using hq)]
      rw [this]
      exact Nat.le_refl _
    · rw [List.erase_cons_tail (by simpa using ha)]
      by_cases hb : a = q
      · subst hb
        unfold behind
        rw [List.dropWhile_cons_of_neg (by simp), List.dropWhile_cons_of_neg (by simp)]
        simp only [List.drop_succ_cons, List.drop_zero]
        exact List.length_erase_le
      · unfold behind at ih ⊢
        rw [List.dropWhile_cons_of_pos (by simpa using hb), List.dropWhile_cons_of_pos (by simpa using hb)]
        exact ih

theorem CInv.queryOff_abides {c c' : Core} (h : CInv c) {host n : Bytes} {type q : Nat} (hn : host ≠ n) (e : c.query host type none = .ok c') :
    Abides q n c c' := by
  intro ⟨x, hx, hxn⟩ m
  refine ⟨(h.queryOff_unended hn e).qs q x hx hxn, ?_⟩
  obtain ⟨o, h1, h2, _⟩ := h.qFind host type
  unfold Core.query at e
  rw [h1] at e
  cases o with
  | none => cases e; exact ⟨m, Nat.le_refl _⟩
  | some q' =>
    obtain ⟨y, hy, e1, e2⟩ := h2 q' rfl
    have hne : q' ≠ q := by
      rintro rfl
      rw [hy] at hx
      cases hx
      exact hn (e1.symm.trans hxn)
    simp only at e
    unfold Core.qDone at e
    rw [hy] at e
    dsimp only at e
    split at e
    · cases e
      exact ⟨(List.mem_erase_of_ne hne.symm).mpr m, behind_erase hne _⟩
    · cases e

theorem Regd.abides {c c' : Core} (h : Regd c c') (q : Nat) (n : Bytes) : Abides q n c c' := by
  intro ⟨x, hx, hxn⟩ m
  refine ⟨(h.unended n).qs q x hx hxn, ?_⟩
  obtain ⟨l, hl⟩ := h.qlist
  have hnd := h.inv.lnodup
  rw [hl] at hnd
  have hq : q ∉ l := fun hm => (List.nodup_append.mp hnd).2.2 q hm q m rfl
  refine ⟨by rw [hl]; simp [m], ?_⟩
  rw [hl]
  unfold behind
  rw [List.dropWhile_append_of_pos]
  · exact Nat.le_refl _
  · intro a ma
    simp only [bne_iff_ne, ne_eq]
    exact fun e => hq (e ▸ ma)

theorem CInv.calls_abides {q : Nat} {n : Bytes} : ∀ (l : List (Bytes × Nat × Option Nat)) {c c' : Core}, CInv c → c.calls l = .ok c' →
    (∀ x ∈ l, x.2.2 = none → x.1 ≠ n) → Abides q n c c'
  | [], c, c', _, e, _ => by
    cases e
    exact .refl _ _ _
  | (host, type, a) :: l, c, c', h, e, hn => by
    have key : ∃ c1, c.query host type a = .ok c1 ∧ CInv c1 ∧ Abides q n c c1 := by
      cases a with
      | none =>
        obtain ⟨c1, e, s⟩ := h.query_ok host type none
        exact ⟨c1, e, s.inv, h.queryOff_abides (hn (host, type, none) (by simp) rfl) e⟩
      | some cb =>
        obtain ⟨c1, e, r, _⟩ := h.queryOn host type cb
        exact ⟨c1, e, r.inv, r.abides q n⟩
    obtain ⟨c1, e1, i1, s1⟩ := key
    unfold Core.calls at e
    rw [e1] at e
    exact s1.trans (CInv.calls_abides l i1 e fun x m => hn x (by simp [m]))

theorem CInv.qAnswerE_abides {c c' : Core} (h : CInv c) {p : Prog} (hp : p.Careful) (e : Cached)
    (he : ∀ q, e.q = some q → ∃ x, c.qs q = some x ∧ x.name = e.rr.name ∧ typeFits x.type e.rr) (ht : e.rr.ttl ≤ c.now.sec)
    (hc : c.qAnswerE p e = .ok c') {q : Nat} {n : Bytes} (hn : bucket n lprime = bucket e.rr.name lprime) : Abides q n c c' := by
  unfold Core.qAnswerE at hc
  cases hq : e.q with
  | none =>
    rw [hq] at hc
    cases hc
    exact .refl _ _ _
  | some q1 =>
    obtain ⟨x, hx, e1, e2⟩ := he q1 hq
    rw [hq] at hc
    have hseen : c.seen e.rr = { e.rr with ttl := 0 } := by
      unfold Core.seen
      rw [if_pos ht]
    obtain ⟨k1, k2⟩ := hp c.log q1 x.cb (c.seen e.rr) (by rw [hseen])
    have h1 : CInv { c with log := c.log ++ [.answer q1 x.cb (c.seen e.rr)] } := by
      apply h.addAnswer hx
      · rw [hseen]; exact e1
      · rw [hseen]; exact e2
    obtain ⟨c1, f1, f2, _⟩ := h1.calls (p (c.log ++ [.answer q1 x.cb (c.seen e.rr)])).calls
    have f3 := h1.calls_abides (q := q) (n := n) _ f1 (by
      intro y m hy he
      refine k2 y m hy ?_
      rw [he, hn, hseen])
    have e4 : c.callAnswerE p q1 e.rr = .ok (false, c1) := by
      have e2 : c.callAnswerE p q1 e.rr =
          match ({ c with log := c.log ++ [.answer q1 x.cb (c.seen e.rr)] } : Core).calls (p (c.log ++ [.answer q1 x.cb (c.seen e.rr)])).calls with
          | .ok c' => .ok ((p (c.log ++ [.answer q1 x.cb (c.seen e.rr)])).stop, c')
          | .ub => .ub
          | .hang => .hang := by
        unfold Core.callAnswerE
        rw [hx]
        rfl
      rw [e2, f1, k1]
    dsimp only at hc
    rw [e4] at hc
    cases hc
    exact f3

theorem CInv.cExpireFE_abides {p : Prog} (hp : p.Polite) (hk : p.Careful) (i : Nat) {q : Nat} {n : Bytes} (hn : bucket n lprime = i) :
    ∀ (fuel k : Nat) {c c' : Core}, CInv c → Core.cExpireFE p i fuel k c = .ok c' → Abides q n c c'
  | 0, _, _, _, _, e => by cases e
  | fuel + 1, k, c, c', h, e => by
    unfold Core.cExpireFE at e
    cases hx : (c.cache i)[k]? with
    | none =>
      rw [hx] at e
      cases e
      exact .refl _ _ _
    | some x =>
      rw [hx] at e
      dsimp only at e
      split at e
      · rename_i hexp
        have hm := List.mem_of_getElem? hx
        have hf : ∀ q, x.q = some q → ∃ y, c.qs q = some y ∧ y.name = x.rr.name ∧ typeFits y.type x.rr :=
          fun q hq => h.cq i x q hm hq
        obtain ⟨c1, e1, s1⟩ := (h.erased i k).qAnswerE hp x hf
        rw [e1] at e
        have h1 := (h.erased i k).qAnswerE_abides hk x hf hexp e1 (q := q) (n := n) (by rw [hn]; exact (h.cbucket i x hm).symm)
        exact Abides.trans (b := c1) h1 (CInv.cExpireFE_abides hp hk i hn fuel k s1.inv e)
      · exact CInv.cExpireFE_abides hp hk i hn fuel (k + 1) h e

theorem cExpireFE_unexpired (p : Prog) (i : Nat) : ∀ (fuel k : Nat) (c : Core),
    (∀ e ∈ c.cache i, c.now.sec < e.rr.ttl) → (c.cache i).length - k < fuel → Core.cExpireFE p i fuel k c = .ok c
  | 0, _, _, _, hf => absurd hf (by simp)
  | fuel + 1, k, c, h, hf => by
    unfold Core.cExpireFE
    split
    · rfl
    · rename_i e he
      have hl := (List.getElem?_eq_some_iff.mp he).1
      rw [if_neg (by have := h e (List.mem_of_getElem? he); omega)]
      exact cExpireFE_unexpired p i fuel (k + 1) c h (by omega)

theorem behind_mem {q : Nat} : ∀ {l : List Nat}, q ∈ l → ∃ pre, l = pre ++ q :: behind q l
  | a :: l, m => by
    by_cases ha : a = q
    · subst ha
      refine ⟨[], ?_⟩
      unfold behind
      rw [List.dropWhile_cons_of_neg (by simp)]
      rfl
    · have m : q ∈ l := (List.mem_cons.mp m).resolve_left fun e => ha e.symm
      obtain ⟨pre, e⟩ := behind_mem m
      refine ⟨a :: pre, ?_⟩
      unfold behind at e ⊢
      rw [List.dropWhile_cons_of_pos (by simpa using ha)]
      rw [List.cons_append, ← e]

theorem updateLoopE_ok {p : Prog} (hp : p.Polite) : ∀ (fuel : Nat) (suf : List Nat) (m : Out) (best ret : Nat) (c : Core), CInv c →
    (p.Careful ∨ c.Unexpired suf) → (∃ pre, c.qlist = pre ++ suf) → suf.length ≤ fuel →
    ∃ r c', updateLoopE p fuel suf.head? m best ret c = .ok (r, c') ∧ CInv c' ∧ c'.rest = c.rest ∧ Said p c.log c'.log
  | fuel, [], m, best, ret, c, h, _, _, _ => by
    refine ⟨(m, best, ret), c, ?_, h, rfl, .refl⟩
    unfold updateLoopE
    rfl
  | fuel + 1, q :: suf, m, best, ret, c, h, hk, ⟨pre, hl⟩, hf => by
    have hf : suf.length ≤ fuel := by simpa using hf
    have hm : q ∈ c.qlist := by rw [hl]; simp
    obtain ⟨x, hx⟩ := h.qlist q hm
    have hnd := h.lnodup
    rw [hl] at hnd
    have hb : behind q c.qlist = suf := by
      rw [hl]
      exact behind_split (split_nodup hnd).1
    rw [List.head?_cons]
    unfold updateLoopE
    rw [hx]
    dsimp only
    by_cases hi : x.nexttry = 0 ∨ x.nexttry > c.now.sec
    · rw [if_pos hi, hb]
      exact updateLoopE_ok hp fuel suf m best ret c h (hk.imp_right fun u p m => u p (List.mem_cons_of_mem _ m)) ⟨pre ++ [q], by simp [hl]⟩ hf
    · rw [if_neg hi]
      by_cases h3 : x.tries = 3
      · rw [if_pos h3]
        have e0 : ∃ c1, c.cExpireE p (bucket x.name lprime) = .ok c1 ∧ CInv c1 ∧ c1.rest = c.rest ∧ Said p c.log c1.log ∧ q ∈ c1.qlist ∧
            (behind q c1.qlist).length ≤ suf.length ∧ (p.Careful ∨ c1 = c) := by
          rcases hk with hk | hk
          · obtain ⟨c1, e1, s1⟩ := h.cExpireE hp (bucket x.name lprime)
            obtain ⟨_, k1, k2⟩ := CInv.cExpireFE_abides hp hk (bucket x.name lprime) (n := x.name) rfl _ _ h e1 ⟨x, hx, rfl⟩ hm
            exact ⟨c1, e1, s1.inv, s1.rest, CInv.cExpireFE_said hp _ _ _ h e1, k1, by rw [hb] at k2; exact k2, .inl hk⟩
          · exact ⟨c, cExpireFE_unexpired p _ _ 0 c (hk q (by simp) x hx h3 hi) (by omega), h, rfl, .refl, hm, by rw [hb]; exact Nat.le_refl _, .inr rfl⟩
        obtain ⟨c1, e1, i1, r1, s1, m1, b1, k1⟩ := e0
        rw [e1]
        dsimp only
        obtain ⟨x1, hx1⟩ := i1.qlist q m1
        rw [qReset_eq hx1]
        dsimp only
        obtain ⟨pre1, hp1⟩ := behind_mem m1
        obtain ⟨r, c2, e2, i2, r2, s2⟩ := updateLoopE_ok hp fuel (behind q c1.qlist) m best ret (c1.resetQ q x1) (i1.resetQ hx1) (by
            rcases k1 with k1 | rfl
            · exact .inl k1
            · rw [hb]
              exact hk.imp_right fun u => u.setQ (split_nodup hnd).2 rfl rfl rfl)
          ⟨pre1 ++ [q], by show c1.qlist = _; simp [← hp1]⟩ (by omega)
        exact ⟨r, c2, e2, i2, r2.trans r1, s1.trans s2⟩
      · rw [if_neg h3]
        obtain ⟨r, c2, e2, i2, r2, s2⟩ := updateLoopE_ok hp fuel suf (knownLoop (c.askedQ q x) x (c.chain x.name) m)
          (if best = 0 ∨ c.now.sec + (x.tries + 1) < best then c.now.sec + (x.tries + 1) else best) (ret + 1) (c.askedQ q x) (h.askedQ hx)
          (hk.imp_right fun u => u.setQ (split_nodup hnd).2 rfl rfl rfl) ⟨pre ++ [q], by show c.qlist = _; simp [hl]⟩ hf
        refine ⟨r, c2, ?_, i2, r2, s2⟩
        show updateLoopE p fuel (behind q c.qlist).head? _ _ _ _ = _
        rw [hb]
        exact e2

theorem outQuestionsE_ok {p : Prog} (hp : p.Polite) {m : Out} {c : Core} (h : CInv c) (hk : p.Careful ∨ c.Unexpired c.qlist) :
    ∃ r c', outQuestionsE p m c = .ok (r, c') ∧ CInv c' ∧ c'.rest = c.rest ∧ Said p c.log c'.log := by
  unfold outQuestionsE
  split
  · rw [askLoop_ok _ _ _ h.qlist]
    obtain ⟨⟨m', best, ret⟩, c', e, i, r, s⟩ := updateLoopE_ok hp c.qlist.length c.qlist (m.add ((c.dueQs c.qlist).map c.questionOf))
      ((c.qlist.filterMap c.qs).foldl c.nextBest 0) 0 c h hk ⟨[], rfl⟩ (Nat.le_refl _)
    dsimp only at e ⊢
    rw [e]
    exact ⟨_, _, rfl, i.congr rfl rfl rfl rfl rfl rfl, r, s⟩
  · exact ⟨_, _, rfl, h, rfl, .refl⟩

theorem outRestE_ok {p : Prog} (hp : p.Polite) {s : OSt} (hk : p.Careful ∨ s.c.Unexpired s.c.qlist) (h : CInv s.c) (hr : RInv s.c s.l)
    (hs : SeenOk s.c s.seen) :
    ∃ r c' l', outRestE p s.m s.seen s.ret ⟨s.c, s.l⟩ = .ok (r, ⟨c', l'⟩) ∧ DInv c' l' ∧ Said p s.c.log c'.log := by
  unfold outRestE
  rw [M.bind_ok qFuel_ok, M.bind_ok core_ok, M.bind_ok qHead_ok]
  have e1 : ∃ s1 : OSt, (if (s.l.q .pause).head? ≠ none ∧ tvdiff s.c.now s.c.pause ≤ 0 then
        rOut .pause s.l.size s.m s.seen s.ret else pure (s.m, s.seen, s.ret) : M Lists _) ⟨s.c, s.l⟩ =
      .ok ((s1.m, s1.seen, s1.ret), ⟨s1.c, s1.l⟩) ∧ PauseOpt s s1 := by
    split
    · rename_i hc
      obtain ⟨t, e, n⟩ := rOut_ok (w := .pause) (by simp) s.l.size s hr (hr.length_le _)
      exact ⟨t, e, .yes (head_ne_none.mp hc.1) hc.2 n⟩
    · rename_i hc
      refine ⟨s, rfl, .no hr ?_⟩
      rw [← head_ne_none]
      exact hc
  obtain ⟨s1, e1, np⟩ := e1
  have hse : ∀ r ∈ s1.seen, ∃ x, s1.c.recs r = some x := fun r mr => by
    obtain ⟨x, hx, _⟩ := np.seenOk hs r mr
    exact ⟨x, hx⟩
  obtain ⟨m', seen', e2, na⟩ := additionals_ok np.inv s1.seen s1.m s1.seen hse
  rw [ite_bind, M.bind_ok e1]
  dsimp only
  rw [M.bind_ok e2]
  dsimp only
  split
  · refine ⟨_, _, _, rfl, ⟨h.recfree np.recfree, np.inv⟩, ?_⟩
    rw [recfree_log np.recfree]
    exact .refl
  · rename_i h0
    have h0 : s1.ret = 0 := by simpa using h0
    obtain ⟨s2, e3, nb⟩ := outProbe_ok (s := { s1 with m := { m' with qr := false, aa := false } }) np.inv h0
    rw [M.bind_ok e3]
    dsimp only
    have hrf : s2.c.recfree = s.c.recfree := nb.recfree.trans np.recfree
    split
    · refine ⟨_, _, _, rfl, ⟨h.recfree hrf, nb.inv⟩, ?_⟩
      rw [recfree_log hrf]
      exact .refl
    · have hc2 : CInv s2.c := h.recfree hrf
      obtain ⟨⟨m3, ret3⟩, c3, e4, i3, r3, a3⟩ := outQuestionsE_ok hp (m := s2.m) hc2 (hk.imp_right fun u => u.recfree hrf)
      rw [recfree_log hrf] at a3
      rw [M.bind_ok (liftC_ok e4)]
      dsimp only
      rw [M.bind_ok core_ok]
      split
      · obtain ⟨c4, e5, i4, g4, _⟩ := i3.gcE hp
        rw [M.bind_ok (liftC_ok (a := ()) (c' := c4) (by rw [e5]; rfl))]
        exact ⟨_, _, _, rfl, ⟨i4, g4 _ (nb.inv.rest r3)⟩, a3.trans (i3.gcE_said hp e5)⟩
      · exact ⟨_, _, _, rfl, ⟨i3, nb.inv.rest r3⟩, a3⟩

/-- `mdnsd_out` ends normally. -/
theorem outMsgE_ok {p : Prog} (hp : p.Polite) {c : Core} {l : Lists} (h : DInv c l) (now : TV)
    (hk : p.Careful ∨ ({ c with now := now } : Core).Unexpired c.qlist) :
    ∃ r c' l', outMsgE p now ⟨c, l⟩ = .ok (r, ⟨c', l'⟩) ∧ DInv c' l' ∧ Said p c.log c'.log := by
  have h' : DInv { c with now := now } l := ⟨h.cinv.congr rfl rfl rfl rfl rfl rfl, h.rinv.congr rfl rfl rfl⟩
  unfold outMsgE
  rw [M.bind_ok modC_ok]
  have hk : p.Careful ∨ ({ c with now := now } : Core).Unexpired ({ c with now := now } : Core).qlist := hk
  have hlog : ({ c with now := now } : Core).log = c.log := rfl
  rw [← hlog]
  generalize ({ c with now := now } : Core) = c0 at h' hk ⊢
  rw [M.bind_ok core_ok]
  cases hu : c0.uanswers with
  | cons u us =>
    dsimp only
    obtain ⟨x, hx⟩ := Option.isSome_iff_exists.mp (h'.rinv.uans u (by rw [hu]; simp))
    obtain ⟨m, seen, e, na, nf⟩ := outUnicast_ok h'.rinv hu hx
    refine ⟨(1, m, u.to), { c0 with uanswers := us, recs := upd c0.recs u.r (some { x with lastSent := c0.now }) }, l, ?_,
      ⟨h'.cinv.recfree rfl, ?_⟩, .refl⟩
    · rw [M.bind_ok e]
      rfl
    · have h1 : RInv { c0 with uanswers := us } l := h'.rinv.dropUnicast hu
      exact h1.setRec hx rfl rfl (h'.rinv.conf _ x hx) (h'.rinv.tries _ x hx) (h'.rinv.ptries _ x hx)
  | nil =>
    dsimp only
    rw [M.bind_ok qFuel_ok]
    obtain ⟨s1, e1, n1⟩ := rOut_ok (w := .now) (by simp) l.size ⟨c0, l, {}, [], 0⟩ h'.rinv (h.rinv.length_le _)
    obtain ⟨s2, e2, n2⟩ := outPublish_ok n1.inv
    have hrf : s2.c.recfree = c0.recfree := n2.recfree.trans n1.recfree
    rw [M.bind_ok e1]
    dsimp only
    rw [M.bind_ok e2]
    dsimp only
    cases hs : c0.shutdown with
    | true =>
      refine ⟨(s2.ret, s2.m, mcast c0.family), s2.c, s2.l, ?_, ⟨h'.cinv.recfree hrf, n2.inv⟩, ?_⟩
      · rw [if_pos rfl]
        rfl
      · rw [recfree_log hrf]
        exact .refl
    | false =>
      rw [if_neg (by simp)]
      obtain ⟨⟨ret, m⟩, c', l', e3, i3, a3⟩ := outRestE_ok hp (s := s2) (hk.imp_right fun u => u.recfree hrf) (h'.cinv.recfree hrf) n2.inv
        (n2.seenOk (n1.seenOk (.nil _)))
      rw [recfree_log hrf] at a3
      exact ⟨(ret, m, mcast c0.family), c', l', by rw [M.bind_ok e3]; rfl, i3, a3⟩

/-- The calls that call answer callbacks. -/
def Op.calling : Op → Bool
  | .recv _ _ _ => true
  | .send _ => true
  | _ => false

theorem stepE_other {Q : Type} [QOps Q] (env : Env) (p : Prog) {o : Op} (h : o.calling = false) : (stepE env p o : M Q OpOut) = step env o := by
  cases o <;> first | rfl | cases h

namespace Sim

theorem outRestE (p : Prog) (m : Out) (seen : List Nat) (ret : Nat) : Sim (Mdns.outRestE p m seen ret) (Mdns.outRestE p m seen ret) := by
  unfold Mdns.outRestE
  sim
macro_rules | `(tactic| sim1) => `(tactic| with_reducible apply Sim.outRestE)

theorem outMsgE (p : Prog) (now : TV) : Sim (Mdns.outMsgE p now) (Mdns.outMsgE p now) := by
  unfold Mdns.outMsgE
  refine bind (modC _) fun _ => bind core fun c => ?_
  cases c.uanswers <;> sim
macro_rules | `(tactic| sim1) => `(tactic| with_reducible apply Sim.outMsgE)

theorem stepE (env : Env) (p : Prog) (o : Op) : Sim (Mdns.stepE env p o) (Mdns.stepE env p o) := by
  cases o with
  | recv now m src => exact bind (inMsgE env p now m src) fun _ => pure _
  | send now => exact bind (outMsgE p now) fun _ => pure _
  | _ =>
    rw [stepE_other env p rfl, stepE_other env p rfl]
    exact Sim.step env _

end Sim

/-! ### Callbacks that only register queries -/

section Plain

variable {env : Env} {p : Prog} (hp : p.Plain) (he : p.Serves env)
include hp he

theorem updateLoopE_plain : ∀ (n : Nat) (o : Option Nat) (m : Out) (best ret : Nat) (c : Core),
    updateLoopE p n o m best ret c = updateLoop env n o m best ret c
  | _, none, _, _, _, _ => by
    unfold updateLoopE updateLoop
    rfl
  | 0, some _, _, _, _, _ => by
    unfold updateLoopE updateLoop
    rfl
  | n + 1, some q, m, best, ret, c => by
    unfold updateLoopE updateLoop
    simp only [cExpireE_plain hp he, updateLoopE_plain n]
    rfl

theorem outQuestionsE_plain (m : Out) (c : Core) : outQuestionsE p m c = outQuestions env m c := by
  unfold outQuestionsE outQuestions
  simp only [updateLoopE_plain hp he]
  rfl

theorem outMsgE_plain {Q : Type} [QOps Q] (now : TV) : (outMsgE p now : M Q (Nat × Out × Addr)) = outMsg env now := by
  have h1 : ∀ m, outQuestionsE p m = outQuestions env m := fun m => funext (outQuestionsE_plain hp he m)
  have h2 : ∀ m seen ret, (outRestE p m seen ret : M Q (Nat × Out)) = outRest env m seen ret := by
    intro m seen ret
    unfold outRestE outRest
    simp only [h1, gcE_plain hp he]
  unfold outMsgE outMsg
  simp only [h2]
  rfl

/-- C105: for callbacks that end no query with `mdnsd_query`, every call does what it does in the other properties. -/
theorem C105_plain {Q : Type} [QOps Q] (o : Op) : (stepE env p o : M Q OpOut) = step env o := by
  cases o with
  | recv now m src =>
    show (do let _ ← inMsgE env p now m src; pure .unit : M Q OpOut) = _
    rw [inMsgE_plain hp he]
    rfl
  | send now =>
    show (do let (ret, m, to) ← outMsgE p now; pure (.sent ret m to) : M Q OpOut) = _
    rw [outMsgE_plain hp he]
    rfl
  | _ => rfl

end Plain

/-! ### Calls -/

/-- What the caller has to see to: as in `OpSafe`, where what callbacks do while a packet is made concerns `p`. -/
def OpSafeE (env : Env) (p : Prog) (c : Core) (q : W → List Nat) : Op → Prop
  | .send now => p.Careful ∨ ({ c with now := now } : Core).Unexpired c.qlist
  | o => OpSafe env c q o

theorem OpSafeE.other {env : Env} {p : Prog} {c : Core} {q : W → List Nat} {o : Op} (hs : OpSafeE env p c q o) (h : o.calling = false) :
    OpSafe env c q o := by
  cases o <;> first | exact hs | cases h

/-- The states that calls lead to where the callbacks are those of `p`. -/
inductive ReachE (env : Env) (p : Prog) : D Ptrs → Prop
  | new (cls frame : Nat) (now : TV) : ReachE env p (newD cls frame now)
  | step {d d' : D Ptrs} {o : Op} {a : OpOut} (h : ReachE env p d) (hs : OpSafeE env p d.c d.q.walk o)
      (e : stepE env p o d = .ok (a, d')) : ReachE env p d'

theorem stepE_ok {env : Env} {p : Prog} (hp : p.Polite) {c : Core} {l : Lists} (h : DInv c l) (o : Op) (hs : OpSafeE env p c l.q o) :
    ∃ a c' l', stepE env p o ⟨c, l⟩ = .ok (a, ⟨c', l'⟩) ∧ DInv c' l' ∧ (o.calling = true → Said p c.log c'.log) := by
  cases o with
  | recv now m src =>
    obtain ⟨ret, c', l', e, n⟩ := inMsgE_ok (env := env) hp (now := now) (src := src) hs h
    exact ⟨_, c', l', (M.bind_ok e).trans rfl, n, fun _ => inMsgE_said hp hs h e⟩
  | send now =>
    obtain ⟨r, c', l', e, n, a⟩ := outMsgE_ok hp h now hs
    exact ⟨_, c', l', (M.bind_ok e).trans rfl, n, fun _ => a⟩
  | _ =>
    rw [stepE_other env p rfl]
    obtain ⟨a, c', l', e, n⟩ := step_ok (env := env) h _ (hs.other rfl)
    exact ⟨a, c', l', e, n.inv h, fun hc => by cases hc⟩

theorem Rep.stepE {env : Env} {p : Prog} (hp : p.Polite) {d : D Ptrs} {l : Lists} (h : Rep d l) (o : Op) (hs : OpSafeE env p d.c d.q.walk o) :
    ∃ a d' l', Mdns.stepE env p o d = .ok (a, d') ∧ Rep d' l' ∧ (o.calling = true → Said p d.c.log d'.c.log) := by
  rw [h.rq.walk] at hs
  obtain ⟨a, c', l', e, n, hl⟩ := stepE_ok hp h.inv o hs
  obtain ⟨p', e', hr⟩ := Sim.stepE env p o d.q l d.c h.rq a c' l' e
  exact ⟨a, ⟨c', p'⟩, l', e', ⟨hr, n⟩, hl⟩

theorem ReachE.rep {env : Env} {p : Prog} (hp : p.Polite) {d : D Ptrs} (h : ReachE env p d) : ∃ l, Rep d l := by
  induction h with
  | new cls frame now => exact ⟨_, newD_rep cls frame now⟩
  | step _ hs e ih =>
    obtain ⟨l, hr⟩ := ih
    obtain ⟨a', d'', l', e', hr', _⟩ := hr.stepE hp _ hs
    rw [e] at e'
    cases e'
    exact ⟨l', hr'⟩

/-- C105: whatever queries callbacks end with `mdnsd_query`, their own included, receiving a packet is defined and terminates, and so is every other
call; if no callback both ends a query for the name it is told of this way and returns -1.  For making a packet, `OpSafeE` says that callbacks told
that a record is gone end no queries for names with its hash, or that no query that was asked three times finds expired records. -/
theorem C105_safe_partial {env : Env} {p : Prog} (hp : p.Polite) {d : D Ptrs} (h : ReachE env p d) :
    (∀ now m src, (∀ a ∈ m.an, a.WF) → ∃ a d', stepE env p (.recv now m src) d = .ok (a, d')) ∧
      ∀ o, OpSafeE env p d.c d.q.walk o → ∃ a d', stepE env p o d = .ok (a, d') := by
  obtain ⟨l, hr⟩ := h.rep hp
  have key : ∀ o, OpSafeE env p d.c d.q.walk o → ∃ a d', stepE env p o d = .ok (a, d') := by
    intro o hs
    obtain ⟨a, d', _, e, _⟩ := hr.stepE hp o hs
    exact ⟨a, d', e⟩
  exact ⟨fun now m src hw => key (.recv now m src) hw, key⟩

/-- C105: removing the expired records from the whole cache with such callbacks is defined too, and removes exactly the expired ones. -/
theorem C105_expiry_partial {env : Env} {p : Prog} (hp : p.Polite) {d : D Ptrs} (h : ReachE env p d) :
    ∃ c', d.c.gcE p = .ok c' ∧ ∀ i < lprime, c'.rrs i = (d.c.rrs i).filter fun a => decide (d.c.now.sec < a.ttl) := by
  obtain ⟨l, hr⟩ := h.rep hp
  obtain ⟨c', e, _, _, h2⟩ := hr.inv.cinv.gcE hp
  exact ⟨c', e, h2⟩

/-- C105: a callback is called only for a record of the name and type it is registered for at that moment (or for all types): not for a query
that another callback ended just before. -/
theorem C105_told_partial {env : Env} {p : Prog} (hp : p.Polite) {d : D Ptrs} (h : ReachE env p d) {pre post : List Event} {q cb : Nat} {rr : Answer}
    (hl : d.c.log = pre ++ .answer q cb rr :: post) : callback pre rr.name rr.type = some cb ∨ callback pre rr.name 255 = some cb := by
  obtain ⟨l, hr⟩ := h.rep hp
  obtain ⟨t, h1, h2⟩ := hr.inv.cinv.tlog pre q cb rr post hl
  rcases h1 with rfl | rfl
  · exact .inl h2
  · exact .inr h2

/-- C105: once ended, in whatever way, a callback is not called until it is registered again. -/
theorem C105_final_partial {env : Env} {p : Prog} (hp : p.Polite) {d : D Ptrs} (h : ReachE env p d) {pre post : List Event} {cb : Nat}
    (hl : d.c.log = pre ++ post) (hc : ∀ n t, callback pre n t ≠ some cb) (hr : ∀ n t, Event.registered n t cb ∉ post) (q : Nat)
    (rr : Answer) : Event.answer q cb rr ∉ post := by
  obtain ⟨l, hr'⟩ := h.rep hp
  refine no_call (pre := pre) ?_ hc hr q rr
  rw [← hl]
  exact hr'.inv.cinv.tlog

/-- C105: what an answer callback asks for with `mdnsd_query` is done before the next callback is called: right after its calls, the callback
registered for any name and type is that of its last call for them, or none if that call was with NULL, or the one registered before if there was
no such call. -/
theorem C105_ended_partial {env : Env} {p : Prog} (hp : p.Polite) {d d' : D Ptrs} (h : ReachE env p d) {o : Op} (ho : o.calling = true)
    (hs : OpSafeE env p d.c d.q.walk o) {a : OpOut} (e : stepE env p o d = .ok (a, d')) {pre post : List Event} {q cb : Nat} {rr : Answer}
    (hl : d'.c.log = pre ++ .answer q cb rr :: post) (hn : d.c.log.length ≤ pre.length) :
    ∃ mid post', post = mid ++ post' ∧ (∀ e ∈ mid, ∀ q cb rr, e ≠ .answer q cb rr) ∧
      ∀ host type, callback (pre ++ .answer q cb rr :: mid) host type =
        lastCall host type (p (pre ++ [.answer q cb rr])).calls (callback pre host type) := by
  obtain ⟨l, hr⟩ := h.rep hp
  obtain ⟨a', d'', l', e', _, hsaid⟩ := hr.stepE hp o hs
  rw [e] at e'
  cases e'
  exact (hsaid ho).after hl hn

/-- C105: the same while expired records are taken out of the cache. -/
theorem C105_endedExpiry_partial {env : Env} {p : Prog} (hp : p.Polite) {d : D Ptrs} (h : ReachE env p d) {c' : Core}
    (e : d.c.gcE p = .ok c') {pre post : List Event} {q cb : Nat} {rr : Answer}
    (hl : c'.log = pre ++ .answer q cb rr :: post) (hn : d.c.log.length ≤ pre.length) :
    ∃ mid post', post = mid ++ post' ∧ (∀ e ∈ mid, ∀ q cb rr, e ≠ .answer q cb rr) ∧
      ∀ host type, callback (pre ++ .answer q cb rr :: mid) host type =
        lastCall host type (p (pre ++ [.answer q cb rr])).calls (callback pre host type) := by
  obtain ⟨l, hr⟩ := h.rep hp
  exact (hr.inv.cinv.gcE_said hp e).after hl hn

namespace Sample

/-- Callback 7 ends the query for `host` and `type` when told of a record with (`gone`) or without lifetime zero, and returns -1 or not. -/
def ender (host : Bytes) (type : Nat) (gone stop : Bool) : Prog := fun l => match l.getLast? with
  | some (.answer _ 7 rr) => if (rr.ttl == 0) == gone then { stop := stop, calls := [(host, type, none)] } else {}
  | _ => {}

/-- A record received while the program runs. -/
def receiving (p : Prog) (now : TV) (m : Msg) (d : D Ptrs) : Res (Nat × D Ptrs) := inMsgE quiet p now m other d

/-- What was told to whom, and which queries ended. -/
def story (d : D Ptrs) : List (Nat × Nat) := d.c.log.filterMap fun e => match e with
  | .answer _ cb rr => some (cb, rr.ttl)
  | .unregistered _ t => some (0, t)
  | _ => none

/-- Two queries for two names. -/
def asked2 : D Ptrs := (trace quiet [.query (nm 97) 12 (some 7), .query (nm 98) 12 (some 8)] fresh).2

/-- A query for all types of a name, and one for one of them. -/
def askedAny : D Ptrs := (trace quiet [.query (nm 97) 255 (some 9), .query (nm 97) 12 (some 7)] fresh).2

/-- The state after a call. -/
def thereafter (x : Res (Nat × D Ptrs)) : D Ptrs := match x with
  | .ok (_, d) => d
  | _ => fresh

/-- Undefined. -/
def isUb (x : Res (Nat × D Ptrs)) : Bool := match x with
  | .ub => true
  | _ => false

theorem isUb_of {x : Res (Nat × D Ptrs)} (h : isUb x = true) : x = .ub := by
  cases x with
  | ub => rfl
  | ok _ => cases h
  | hang => cases h

theorem ender_polite (host : Bytes) (type : Nat) (gone : Bool) : (ender host type gone false).Polite := by
  refine Prog.Silent.polite fun log => ?_
  unfold ender
  split
  · split <;> rfl
  · rfl

/-- The callback ends its own query when told of the first of two answers, and is not told of the second; both are cached. -/
example : story (thereafter (receiving (ender (nm 97) 12 false false) (at_ 101) { ptrMsg 10 with an := [ptrTo 98 1 10, ptrTo 99 1 100] } asked2)) =
      [(7, 114), (0, 12)] ∧
    ((thereafter (receiving (ender (nm 97) 12 false false) (at_ 101) { ptrMsg 10 with an := [ptrTo 98 1 10, ptrTo 99 1 100] } asked2)).c.listed
      (nm 97) 12).length = 2 := by decide +kernel

/-- The callback ends another query and its own. -/
example : story (thereafter (receiving (ender (nm 98) 12 false true) (at_ 101) (ptrMsg 10) asked2)) = [(7, 114), (0, 12), (0, 12)] := by
  decide +kernel

/-- The callback ends its own query when told that the record is gone. -/
example : story (thereafter (receiving (ender (nm 97) 12 true false) (at_ 102) (ptrMsg 0)
    (thereafter (receiving (ender (nm 97) 12 true false) (at_ 101) (ptrMsg 10) asked2)))) = [(7, 114), (7, 0), (0, 12)] := by decide +kernel

/-- Calls one after the other. -/
def traceE (p : Prog) : List Op → D Ptrs → Res (Nat × D Ptrs)
  | [], d => .ok (0, d)
  | o :: ops, d => match stepE quiet p o d with
    | .ok (_, d) => traceE p ops d
    | .ub => .ub
    | .hang => .hang

/-- An executable condition that implies `OpSafeE` for receiving, asking, and sending with careful callbacks. -/
def plainOp : Op → Bool
  | .recv now m src => opSafeB fresh (.recv now m src)
  | .query _ _ _ => true
  | .send _ => true
  | _ => false

theorem reachE_trace {p : Prog} (hk : p.Careful) : ∀ (ops : List Op) {d d' : D Ptrs} {n : Nat}, ops.all plainOp = true → ReachE quiet p d →
    traceE p ops d = .ok (n, d') → ReachE quiet p d'
  | [], d, d', n, _, h, e => by cases e; exact h
  | o :: ops, d, d', n, ha, h, e => by
    rw [List.all_cons, Bool.and_eq_true] at ha
    unfold traceE at e
    split at e
    · rename_i a d1 e1
      refine reachE_trace hk ops ha.2 (h.step (o := o) ?_ e1) e
      cases o with
      | recv now m src =>
        exact opSafeB_sound (env := quiet) (d := fresh) quiet_keeps (o := .recv now m src) ha.1
      | query _ _ _ => trivial
      | send now => exact .inl hk
      | _ => cases ha.1
    · cases e
    · cases e

/-- Callback 7 ends the query for `host` when told that a record is gone; the name it is registered for has another hash. -/
theorem ender_careful {host : Bytes} (type : Nat) (hn : ∀ n, n ∈ [nm 97, nm 98] → bucket host lprime ≠ bucket n lprime) :
    Prog.Careful fun log => match log.getLast? with
      | some (.answer _ 7 rr) => if rr.name = nm 97 ∨ rr.name = nm 98 then { calls := [(host, type, none)] } else {}
      | _ => {} := by
  intro log q cb rr _
  simp only [List.getLast?_append, List.getLast?_singleton, Option.some_or]
  split
  · split
    · rename_i h1 h2
      cases h1
      refine ⟨rfl, fun x m _ => ?_⟩
      rw [List.mem_singleton] at m
      subst m
      exact hn _ (by simpa using h2)
    · exact ⟨rfl, fun x m => by cases m⟩
  · exact ⟨rfl, fun x m => by cases m⟩

/-- Ends the query for `c.`. -/
def endC : Prog := fun log => match log.getLast? with
  | some (.answer _ 7 rr) => if rr.name = nm 97 ∨ rr.name = nm 98 then { calls := [(nm 99, 12, none)] } else {}
  | _ => {}

theorem endC_careful : endC.Careful := ender_careful (host := nm 99) 12 (by decide +kernel)
theorem endC_polite : endC.Polite := by
  refine Prog.Silent.polite fun log => ?_
  unfold endC
  split
  · split <;> rfl
  · rfl

/-- Asking three times, and sending after the record has expired. -/
def wait : List Op := [.recv (at_ 101) (ptrMsg 4) other, .send (at_ 104), .send (at_ 105), .send (at_ 107), .send (at_ 111)]

/-- The callback is told that the record is gone while a packet is made, and ends another query. -/
example : story (thereafter (traceE (fun l => if l.any fun e => match e with | .answer _ _ rr => rr.ttl == 0 | _ => false then endC l else {})
    (.query (nm 99) 12 (some 8) :: .query (nm 97) 12 (some 7) :: wait) fresh)) = [(7, 111), (7, 0), (0, 12)] := by decide +kernel

example : ReachE quiet endC (thereafter (traceE endC (.query (nm 99) 12 (some 8) :: .query (nm 97) 12 (some 7) :: wait) fresh)) ∧
    story (thereafter (traceE endC (.query (nm 99) 12 (some 8) :: .query (nm 97) 12 (some 7) :: wait) fresh)) = [(7, 111), (0, 12), (7, 0)] := by
  refine ⟨?_, by decide +kernel⟩
  cases h : traceE endC (.query (nm 99) 12 (some 8) :: .query (nm 97) 12 (some 7) :: wait) fresh with
  | ok x => exact reachE_trace endC_careful _ (by decide +kernel) (.new 1 1500 (at_ 100)) h
  | ub => exact .new 1 1500 (at_ 100)
  | hang => exact .new 1 1500 (at_ 100)

/-- Names with the same hash. -/
def twin1 : Bytes := [97, 113, 46]
def twin2 : Bytes := [98, 97, 46]

/-- Callback 7, told of a record, ends the query of callback 8 and registers callback 9: both are done when the packet is received. -/
example : let d := thereafter (receiving (fun l => match l.getLast? with
      | some (.answer _ 7 _) => { calls := [(nm 98, 12, none), (nm 99, 12, some 9)] }
      | _ => {}) (at_ 101) (ptrMsg 10) asked2)
    (callback asked2.c.log (nm 98) 12, callback asked2.c.log (nm 99) 12) = (some 8, none) ∧
      (callback d.c.log (nm 98) 12, callback d.c.log (nm 99) 12, callback d.c.log (nm 97) 12) = (none, some 9, some 7) := by decide +kernel

/-- A callback that ends its query and registers it again for another callback. -/
example : lastCall (nm 97) 12 [(nm 97, 12, none), (nm 98, 12, none), (nm 97, 12, some 5)] (some 7) = some 5 := by decide

end Sample

open Sample in
/-- C105 is false in full: a callback that ends its query with `mdnsd_query` and also returns -1 makes the daemon use a query that does not exist:
NULL when the record is new, the freed query when it is gone (`libmdnsd/mdnsd.c:491-492`). -/
theorem C105_twice_counterexample :
    inMsgE quiet (ender (nm 97) 12 false true) (at_ 101) (ptrMsg 10) other asked2 = .ub ∧
      inMsgE quiet (ender (nm 97) 12 true true) (at_ 102) (ptrMsg 0) other
        (thereafter (inMsgE quiet (ender (nm 97) 12 true true) (at_ 101) (ptrMsg 10) other asked2)) = .ub := by
  exact ⟨isUb_of (by decide +kernel), isUb_of (by decide +kernel)⟩

open Sample in
/-- C105 is false in full: ending the query for all types of the name, not the callback's own, and returning -1 is undefined as well: the record then
refers to no query, and NULL is used. -/
theorem C105_any_counterexample : inMsgE quiet (ender (nm 97) 255 false true) (at_ 101) (ptrMsg 10) other askedAny = .ub :=
  isUb_of (by decide +kernel)

open Sample in
/-- C105 is false in full: a callback told that a record is gone while a packet is made must not end its query with `mdnsd_query`, whatever it returns:
the query is used afterwards (`libmdnsd/mdnsd.c:1425-1426`). -/
theorem C105_sending_counterexample :
    traceE (ender (nm 97) 12 true false) (.query (nm 97) 12 (some 7) :: wait) (newD 1 1500 (at_ 100)) = .ub :=
  isUb_of (by decide +kernel)

open Sample in
/-- C105 is false in full: nor may it end a query for another name, if the two names have the same hash. -/
theorem C105_twin_counterexample : twin1 ≠ twin2 ∧
    traceE (ender twin2 12 true false) [.query twin1 12 (some 7), .recv (at_ 101) { ptrMsg 4 with an := [⟨twin1, 12, 1, 4, [], .name (nm 98)⟩] } other,
      .send (at_ 102), .query twin2 12 (some 8), .send (at_ 104), .send (at_ 105), .send (at_ 107), .send (at_ 111), .send (at_ 114)]
      (newD 1 1500 (at_ 100)) = .ub :=
  ⟨by decide, isUb_of (by decide +kernel)⟩

end Mdns
