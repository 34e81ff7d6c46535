import Verif.Lemmas.Extras

/-!
# Questions, and `mdnsd_out` as a whole
-/

namespace Mdns

open M

/-- A question is due. -/
def Core.due (c : Core) (x : Query) : Prop := x.nexttry > 0 ∧ x.nexttry ≤ c.now.sec ∧ x.tries < 3

instance (c : Core) (x : Query) : Decidable (c.due x) := by unfold Core.due; infer_instance

/-- The queries of a list that are due. -/
def Core.dueQs (c : Core) (l : List Nat) : List Query :=
  l.filterMap fun q => (c.qs q).bind fun x => if c.due x then some x else none

/-- The question of a query. -/
def Core.questionOf (c : Core) (x : Query) : MOp := .b (.qd x.name x.type c.cls)

/-- `nextbest` with one more query. -/
def Core.nextBest (c : Core) (best : Nat) (x : Query) : Nat :=
  if c.due x then best else if x.nexttry > 0 ∧ (best = 0 ∨ x.nexttry < best) then x.nexttry else best

theorem Out.add_nil (m : Out) : m.add [] = m := by
  unfold Out.add
  simp

theorem Out.add_add (m : Out) (a b : List MOp) : (m.add a).add b = m.add (a ++ b) := by
  unfold Out.add
  simp

theorem askLoop_ok {c : Core} : ∀ (l : List Nat) (m : Out) (best : Nat), (∀ q ∈ l, ∃ x, c.qs q = some x) →
    askLoop c l m best = .ok (m.add ((c.dueQs l).map c.questionOf), (l.filterMap c.qs).foldl c.nextBest best)
  | [], m, best, _ => by
    simp only [askLoop, Core.dueQs, List.filterMap_nil, List.map_nil, Out.add_nil, List.foldl_nil]
  | q :: l, m, best, h => by
    obtain ⟨x, hx⟩ := h q (by simp)
    have ih := fun m best => askLoop_ok l m best fun q' m' => h q' (by simp [m'])
    have hd : c.dueQs (q :: l) = if c.due x then x :: c.dueQs l else c.dueQs l := by
      unfold Core.dueQs
      rw [List.filterMap_cons]
      simp only [hx, Option.bind_some]
      by_cases hd : c.due x
      · simp only [if_pos hd]
      · simp only [if_neg hd]
    rw [List.filterMap_cons, hx, hd]
    simp only [askLoop, hx, List.foldl_cons, Core.nextBest]
    by_cases hd : c.due x
    · have hd' : x.nexttry > 0 ∧ x.nexttry ≤ c.now.sec ∧ x.tries < 3 := hd
      rw [if_pos hd', ih, if_pos hd, if_pos hd, Out.add_add]
      rfl
    · have hd' : ¬ (x.nexttry > 0 ∧ x.nexttry ≤ c.now.sec ∧ x.tries < 3) := hd
      rw [if_neg hd', if_neg hd, if_neg hd]
      split
      · rw [ih]
      · rw [ih]

/-- State of the second loop over the queries. -/
structure QSt where
  c : Core
  m : Out
  best : Nat
  ret : Nat

/-- A query after `_q_reset`. -/
def Core.resetQ (c : Core) (q : Nat) (x : Query) : Core :=
  { c with
    qs := upd c.qs q (some { x with nexttry := c.dueTime x, tries := 0 })
    checkqlist := if c.dueTime x ≠ 0 ∧ c.dueTime x < c.checkqlist then c.dueTime x else c.checkqlist }

/-- A query that was asked. -/
def Core.askedQ (c : Core) (q : Nat) (x : Query) : Core :=
  { c with qs := upd c.qs q (some { x with nexttry := c.now.sec + (x.tries + 1), tries := x.tries + 1 }) }

/-- The steps of the second loop over the queries. -/
inductive Upd (env : Env) : List Nat → QSt → QSt → Prop
  | done {s : QSt} (h : CInv s.c) : Upd env [] s s
  /-- not due -/
  | idle {q : Nat} {suf : List Nat} {s t : QSt} {x : Query} (h : CInv s.c) (hx : s.c.qs q = some x)
      (hi : x.nexttry = 0 ∨ x.nexttry > s.c.now.sec) (n : Upd env suf s t) : Upd env (q :: suf) s t
  /-- asked three times -/
  | again {q : Nat} {suf : List Nat} {s t : QSt} {x : Query} {c1 : Core} {evs : List Event} {cb : Nat} (h : CInv s.c)
      (hx : s.c.qs q = some x) (hi : ¬ (x.nexttry = 0 ∨ x.nexttry > s.c.now.sec)) (h3 : x.tries = 3)
      (he : s.c.cExpire env (bucket x.name lprime) = .ok c1) (hc : Cbs s.c c1 evs) (hn : NoEnd evs)
      (hx1 : c1.qs q = some { x with cb := cb })
      (n : Upd env suf { s with c := c1.resetQ q { x with cb := cb } } t) : Upd env (q :: suf) s t
  /-- asked -/
  | ask {q : Nat} {suf : List Nat} {s t : QSt} {x : Query} (h : CInv s.c) (hx : s.c.qs q = some x)
      (hi : ¬ (x.nexttry = 0 ∨ x.nexttry > s.c.now.sec)) (h3 : x.tries ≠ 3)
      (n : Upd env suf ⟨s.c.askedQ q x, knownLoop (s.c.askedQ q x) x (s.c.chain x.name) s.m,
        if s.best = 0 ∨ s.c.now.sec + (x.tries + 1) < s.best then s.c.now.sec + (x.tries + 1) else s.best, s.ret + 1⟩ t) :
      Upd env (q :: suf) s t

theorem Upd.inv {env : Env} {suf : List Nat} {s t : QSt} (n : Upd env suf s t) : CInv t.c := by
  induction n with
  | done h => exact h
  | idle _ _ _ _ ih => exact ih
  | again _ _ _ _ _ _ _ _ _ ih => exact ih
  | ask _ _ _ _ _ ih => exact ih

theorem Upd.rest {env : Env} {suf : List Nat} {s t : QSt} (n : Upd env suf s t) : t.c.rest = s.c.rest := by
  induction n with
  | done h => rfl
  | idle _ _ _ _ ih => exact ih
  | again _ _ _ _ _ hc _ _ _ ih => exact ih.trans hc.rest
  | ask _ _ _ _ _ ih => exact ih

theorem behind_split {q : Nat} {pre suf : List Nat} (h : q ∉ pre) : behind q (pre ++ q :: suf) = suf := by
  unfold behind
  have : (pre ++ q :: suf).dropWhile (· != q) = q :: suf := by
    rw [List.dropWhile_append_of_pos]
    · simp
    · intro a m
      simp only [bne_iff_ne, ne_eq]
      exact fun e => h (e ▸ m)
  rw [this]
  rfl

theorem CInv.resetQ {c : Core} (h : CInv c) {q : Nat} {x : Query} (hx : c.qs q = some x) : CInv (c.resetQ q x) :=
  h.setQuery (x' := { x with nexttry := c.dueTime x, tries := 0 }) hx rfl rfl rfl _

theorem CInv.askedQ {c : Core} (h : CInv c) {q : Nat} {x : Query} (hx : c.qs q = some x) : CInv (c.askedQ q x) :=
  h.setQuery (x' := { x with nexttry := c.now.sec + (x.tries + 1), tries := x.tries + 1 }) hx rfl rfl rfl c.checkqlist

/-- No query of the list that was asked three times and is due finds an expired entry in its
chain. -/
def Core.Unexpired (c : Core) (suf : List Nat) : Prop :=
  ∀ q ∈ suf, ∀ x, c.qs q = some x → x.tries = 3 → ¬ (x.nexttry = 0 ∨ x.nexttry > c.now.sec) →
    ∀ e ∈ c.cache (bucket x.name lprime), c.now.sec < e.rr.ttl

theorem Core.Unexpired.setQ {c c' : Core} {q : Nat} {suf : List Nat} {x : Option Query} (h : c.Unexpired (q :: suf))
    (hq : q ∉ suf) (hn : c'.now = c.now) (hc : c'.cache = c.cache) (e : c'.qs = upd c.qs q x) : c'.Unexpired suf := by
  intro p m y hy
  have hpq : p ≠ q := fun e => hq (e ▸ m)
  rw [e, upd_other _ _ _ _ hpq] at hy
  rw [hn, hc]
  exact h p (List.mem_cons_of_mem _ m) y hy

theorem cExpireF_unexpired (env : Env) (i : Nat) : ∀ (fuel k : Nat) (c : Core),
    (∀ e ∈ c.cache i, c.now.sec < e.rr.ttl) → (c.cache i).length - k < fuel → Core.cExpireF env i fuel k c = .ok c
  | 0, _, _, _, hf => absurd hf (by simp)
  | fuel + 1, k, c, h, hf => by
    unfold Core.cExpireF
    split
    · rfl
    · rename_i e he
      have hl := (List.getElem?_eq_some_iff.mp he).1
      rw [if_neg (by have := h e (List.mem_of_getElem? he); omega)]
      exact cExpireF_unexpired env i fuel (k + 1) c h (by omega)

theorem cExpire_unexpired (env : Env) {c : Core} {i : Nat} (h : ∀ e ∈ c.cache i, c.now.sec < e.rr.ttl) :
    c.cExpire env i = .ok c :=
  cExpireF_unexpired env i _ 0 c h (by omega)

theorem updateLoop_ok {env : Env} : ∀ (suf : List Nat) (fuel : Nat) (s : QSt), CInv s.c →
    (env.KeepOnExpiry ∨ s.c.Unexpired suf) → (∃ pre, s.c.qlist = pre ++ suf) → suf.length ≤ fuel →
    ∃ t, updateLoop env fuel suf.head? s.m s.best s.ret s.c = .ok ((t.m, t.best, t.ret), t.c) ∧ Upd env suf s t
  | [], fuel, s, h, _, _, _ => by
    refine ⟨s, ?_, .done h⟩
    unfold updateLoop
    rfl
  | q :: suf, fuel + 1, s, h, hk, ⟨pre, hp⟩, hf => by
    have hf : suf.length ≤ fuel := by simpa using hf
    obtain ⟨x, hx⟩ := h.qlist q (by rw [hp]; simp)
    have hnd := h.lnodup
    rw [hp] at hnd
    have hb : behind q s.c.qlist = suf := by
      rw [hp]
      exact behind_split (split_nodup hnd).1
    rw [List.head?_cons]
    unfold updateLoop
    rw [hx]
    dsimp only
    by_cases hi : x.nexttry = 0 ∨ x.nexttry > s.c.now.sec
    · rw [if_pos hi, hb]
      obtain ⟨t, e, n⟩ := updateLoop_ok suf fuel s h (hk.imp_right fun u p m => u p (List.mem_cons_of_mem _ m)) ⟨pre ++ [q], by simp [hp]⟩ hf
      exact ⟨t, e, .idle h hx hi n⟩
    · rw [if_neg hi]
      by_cases h3 : x.tries = 3
      · rw [if_pos h3]
        have e0 : ∃ c1 evs, s.c.cExpire env (bucket x.name lprime) = .ok c1 ∧ Cbs s.c c1 evs ∧ NoEnd evs ∧
            (env.KeepOnExpiry ∨ c1 = s.c) := by
          rcases hk with hk | hk
          · obtain ⟨c1, evs, e1, s1, _, _, _, _, k⟩ := h.cExpire env (bucket x.name lprime)
            exact ⟨c1, evs, e1, s1, k hk, .inl hk⟩
          · exact ⟨s.c, [], cExpire_unexpired env (hk q (by simp) x hx h3 hi), .refl h, .nil, .inr rfl⟩
        obtain ⟨c1, evs, e1, s1, hn, hk1⟩ := e0
        obtain ⟨l1, hl1⟩ := s1.qlist hn
        have hx1 : ∃ cb, c1.qs q = some { x with cb := cb } := by
          rcases s1.kept q x hx with hx1 | ⟨_, m⟩
          · exact hx1
          · exact absurd m (hn _ _)
        obtain ⟨cb, hx1⟩ := hx1
        have hq1 : c1.qlist = (l1 ++ pre) ++ q :: suf := by rw [hl1, hp, List.append_assoc]
        have hnd1 := s1.inv.lnodup
        rw [hq1] at hnd1
        have hb1 : behind q c1.qlist = suf := by
          rw [hq1]
          exact behind_split (split_nodup hnd1).1
        rw [e1]
        dsimp only
        rw [qReset_eq hx1]
        dsimp only
        rw [hb1]
        obtain ⟨t, e, n⟩ := updateLoop_ok suf fuel { s with c := c1.resetQ q { x with cb := cb } } (s1.inv.resetQ hx1)
          (by
            rcases hk1 with hk1 | rfl
            · exact .inl hk1
            · exact hk.imp_right fun u => u.setQ (split_nodup hnd).2 rfl rfl rfl)
          ⟨l1 ++ pre ++ [q], by show c1.qlist = _; simp [hq1]⟩ hf
        exact ⟨t, e, .again h hx hi h3 e1 s1 hn hx1 n⟩
      · rw [if_neg h3]
        obtain ⟨t, e, n⟩ := updateLoop_ok suf fuel ⟨s.c.askedQ q x, knownLoop (s.c.askedQ q x) x (s.c.chain x.name) s.m,
          if s.best = 0 ∨ s.c.now.sec + (x.tries + 1) < s.best then s.c.now.sec + (x.tries + 1) else s.best, s.ret + 1⟩
          (h.askedQ hx) (hk.imp_right fun u => u.setQ (split_nodup hnd).2 rfl rfl rfl) ⟨pre ++ [q], by show s.c.qlist = _; simp [hp]⟩ hf
        refine ⟨t, ?_, .ask h hx hi h3 n⟩
        show updateLoop env fuel (behind q s.c.qlist).head? _ _ _ _ = _
        rw [hb]
        exact e

/-- The questions of `mdnsd_out`. -/
inductive QuestOpt (env : Env) (m : Out) (c : Core) : Nat → Out → Core → Prop
  | no (h : CInv c) (hn : ¬ (c.checkqlist ≠ 0 ∧ c.now.sec ≥ c.checkqlist)) : QuestOpt env m c 0 m c
  | yes {t : QSt} (h1 : c.checkqlist ≠ 0) (h2 : c.now.sec ≥ c.checkqlist)
      (n : Upd env c.qlist ⟨c, m.add ((c.dueQs c.qlist).map c.questionOf),
        (c.qlist.filterMap c.qs).foldl c.nextBest 0, 0⟩ t) :
      QuestOpt env m c t.ret t.m { t.c with checkqlist := t.best }

theorem QuestOpt.inv {env : Env} {m m' : Out} {c c' : Core} {ret : Nat} (n : QuestOpt env m c ret m' c') : CInv c' := by
  cases n with
  | no h => exact h
  | yes _ _ n => exact n.inv.congr rfl rfl rfl rfl rfl rfl

theorem QuestOpt.rest {env : Env} {m m' : Out} {c c' : Core} {ret : Nat} (n : QuestOpt env m c ret m' c') :
    c'.rest = c.rest := by
  cases n with
  | no h => rfl
  | yes _ _ n => exact n.rest

theorem outQuestions_ok {env : Env} {m : Out} {c : Core} (h : CInv c) (hk : env.KeepOnExpiry ∨ c.Unexpired c.qlist) :
    ∃ ret m' c', outQuestions env m c = .ok ((m', ret), c') ∧ QuestOpt env m c ret m' c' := by
  unfold outQuestions
  split
  · rename_i hc
    rw [askLoop_ok _ _ _ h.qlist]
    obtain ⟨t, e, n⟩ := updateLoop_ok c.qlist c.qlist.length ⟨c, m.add ((c.dueQs c.qlist).map c.questionOf),
        (c.qlist.filterMap c.qs).foldl c.nextBest 0, 0⟩ h hk ⟨[], rfl⟩ (Nat.le_refl _)
    dsimp only at e ⊢
    rw [e]
    exact ⟨_, _, _, rfl, .yes hc.1 hc.2 n⟩
  · rename_i hc
    exact ⟨_, _, _, rfl, .no h hc⟩

/-- The sweep at the end of `mdnsd_out`. -/
inductive GcOpt (env : Env) (c : Core) : Core → Prop
  | no (h : CInv c) (hn : ¬ c.now.sec > c.expireall) : GcOpt env c c
  | yes {c' : Core} (h : CInv c) (hn : c.now.sec > c.expireall) (e : c.gc env = .ok c') : GcOpt env c c'

/-- `mdnsd_out` behind the publish retries. -/
inductive OutRest (env : Env) (s : OSt) : Nat → Out → Core → Lists → Prop
  /-- answers -/
  | answers {s1 : OSt} {m : Out} {seen : List Nat} (np : PauseOpt s s1)
      (na : AddL s1.c (fun r => ∃ r0 ∈ s1.seen, Extra s1.c r0 r) s1.m s1.seen m seen) (hr : s1.ret ≠ 0)
      (nf : ∀ r0 ∈ s1.seen, ∀ r, Extra s1.c r0 r → Served s1.c s1.seen m r) :
      OutRest env s s1.ret m s1.c s1.l
  /-- probes -/
  | probes {s1 s2 : OSt} {m : Out} {seen : List Nat} (np : PauseOpt s s1)
      (na : AddL s1.c (fun r => ∃ r0 ∈ s1.seen, Extra s1.c r0 r) s1.m s1.seen m seen) (hr : s1.ret = 0)
      (nb : ProbeOpt { s1 with m := { m with qr := false, aa := false } } s2) (hr2 : s2.ret ≠ 0) :
      OutRest env s s2.ret s2.m s2.c s2.l
  /-- questions, or nothing -/
  | questions {s1 s2 : OSt} {m : Out} {seen : List Nat} {ret : Nat} {m' : Out} {c3 c4 : Core} (np : PauseOpt s s1)
      (na : AddL s1.c (fun r => ∃ r0 ∈ s1.seen, Extra s1.c r0 r) s1.m s1.seen m seen) (hr : s1.ret = 0)
      (nb : ProbeOpt { s1 with m := { m with qr := false, aa := false } } s2) (hr2 : s2.ret = 0)
      (nq : QuestOpt env s2.m s2.c ret m' c3) (ng : GcOpt env c3 c4) :
      OutRest env s ret m' c4 s2.l

/-- `mdnsd_out`; `c` has the current time. -/
inductive OutMsg (env : Env) (c : Core) (l : Lists) : Nat → Out → Addr → Core → Lists → Prop
  /-- a unicast answer -/
  | unicast {u : Unicast} {us : List Unicast} {x : Rec} {m : Out} {seen : List Nat} (h : c.uanswers = u :: us)
      (hx : c.recs u.r = some x)
      (na : AddL { c with uanswers := us, recs := upd c.recs u.r (some { x with lastSent := c.now }) }
        (Extra { c with uanswers := us, recs := upd c.recs u.r (some { x with lastSent := c.now }) } u.r)
        ((({ id := u.id } : Out).add [.b (.qd x.rr.name x.rr.type c.cls)]).put .an u.r x.rr c.cls) [u.r] m seen)
      (nf : ∀ r, Extra { c with uanswers := us, recs := upd c.recs u.r (some { x with lastSent := c.now }) } u.r r →
        Served { c with uanswers := us, recs := upd c.recs u.r (some { x with lastSent := c.now }) } [u.r] m r) :
      OutMsg env c l 1 m u.to { c with uanswers := us, recs := upd c.recs u.r (some { x with lastSent := c.now }) } l
  /-- shutting down -/
  | shutdown {s1 s2 : OSt} (h : c.uanswers = []) (n1 : ROut .now ⟨c, l, {}, [], 0⟩ s1) (n2 : PubOpt s1 s2)
      (hs : c.shutdown = true) : OutMsg env c l s2.ret s2.m (mcast c.family) s2.c s2.l
  | normal {s1 s2 : OSt} {ret : Nat} {m : Out} {c' : Core} {l' : Lists} (h : c.uanswers = [])
      (n1 : ROut .now ⟨c, l, {}, [], 0⟩ s1) (n2 : PubOpt s1 s2) (hs : c.shutdown = false)
      (n3 : OutRest env s2 ret m c' l') : OutMsg env c l ret m (mcast c.family) c' l'

/-- The whole invariant. -/
structure DInv (c : Core) (l : Lists) : Prop where
  cinv : CInv c
  rinv : RInv c l

theorem GcOpt.inv {env : Env} {c c' : Core} (n : GcOpt env c c') : CInv c' := by
  cases n with
  | no h => exact h
  | yes h hn e =>
    obtain ⟨c1, evs, e1, s1, _⟩ := h.gc env
    rw [e1] at e
    cases e
    exact s1.inv.congr rfl rfl rfl rfl rfl rfl

theorem GcOpt.rinv {env : Env} {c c' : Core} {l : Lists} (n : GcOpt env c c') (h : RInv c l) : RInv c' l := by
  cases n with
  | no _ => exact h
  | yes hc hn e =>
    obtain ⟨c1, evs, e1, s1, _⟩ := hc.gc env
    rw [e1] at e
    cases e
    exact (h.rest s1.rest).congr rfl rfl rfl

theorem OutRest.inv {env : Env} {s : OSt} {ret : Nat} {m : Out} {c : Core} {l : Lists} (n : OutRest env s ret m c l)
    (h : CInv s.c) : DInv c l := by
  cases n with
  | answers np => exact ⟨h.recfree np.recfree, np.inv⟩
  | probes np _ _ nb => exact ⟨h.recfree (nb.recfree.trans np.recfree), nb.inv⟩
  | questions np _ _ nb _ nq ng => exact ⟨ng.inv, ng.rinv (nb.inv.rest nq.rest)⟩

theorem RInv.dropUnicast {c : Core} {l : Lists} (h : RInv c l) {u : Unicast} {us : List Unicast}
    (hu : c.uanswers = u :: us) : RInv { c with uanswers := us } l :=
  { h with uans := fun v m => h.uans v (by rw [hu]; simp [m]) }

theorem OutMsg.inv {env : Env} {c : Core} {l : Lists} {ret : Nat} {m : Out} {to : Addr} {c' : Core} {l' : Lists}
    (n : OutMsg env c l ret m to c' l') (h : DInv c l) : DInv c' l' := by
  cases n with
  | @unicast u us x _ _ hu hx _ _ =>
    refine ⟨h.cinv.recfree rfl, ?_⟩
    have h1 : RInv { c with uanswers := us } l := h.rinv.dropUnicast hu
    exact h1.setRec hx rfl rfl (h.rinv.conf _ x hx) (h.rinv.tries _ x hx) (h.rinv.ptries _ x hx)
  | shutdown _ n1 n2 _ => exact ⟨h.cinv.recfree (n2.recfree.trans n1.recfree), n2.inv⟩
  | normal _ n1 n2 _ n3 => exact n3.inv (h.cinv.recfree (n2.recfree.trans n1.recfree))

theorem ite_bind {α β : Type} {p : Prop} [Decidable p] {x y : M Lists α} {f : α → M Lists β} {d : D Lists} :
    (if p then x >>= f else y >>= f) d = ((if p then x else y) >>= f) d := by
  split <;> rfl

theorem Core.Unexpired.recfree {c c' : Core} (h : c.Unexpired c.qlist) (e : c'.recfree = c.recfree) :
    c'.Unexpired c'.qlist := by
  have h1 : c'.qs = c.qs := (congrArg Core.qs e : c'.recfree.qs = c.recfree.qs)
  have h2 : c'.cache = c.cache := (congrArg Core.cache e : c'.recfree.cache = c.recfree.cache)
  have h3 : c'.qlist = c.qlist := (congrArg Core.qlist e : c'.recfree.qlist = c.recfree.qlist)
  unfold Core.Unexpired
  rw [h1, h2, h3, recfree_now e]
  exact h

theorem outRest_ok {env : Env} {s : OSt} (hk : env.KeepOnExpiry ∨ s.c.Unexpired s.c.qlist) (h : CInv s.c) (hr : RInv s.c s.l)
    (hs : SeenOk s.c s.seen) :
    ∃ ret m c' l', outRest env s.m s.seen s.ret ⟨s.c, s.l⟩ = .ok ((ret, m), ⟨c', l'⟩) ∧ OutRest env s ret m c' l' := by
  unfold outRest
  rw [M.bind_ok qFuel_ok, M.bind_ok core_ok, M.bind_ok qHead_ok]
  have e1 : ∃ s1 : OSt, (if (s.l.q .pause).head? ≠ none ∧ tvdiff s.c.now s.c.pause ≤ 0 then
        rOut .pause s.l.size s.m s.seen s.ret else pure (s.m, s.seen, s.ret) : M Lists _) ⟨s.c, s.l⟩ =
      .ok ((s1.m, s1.seen, s1.ret), ⟨s1.c, s1.l⟩) ∧ PauseOpt s s1 := by
    split
    · rename_i hc
      obtain ⟨t, e, n⟩ := rOut_ok (w := .pause) (by simp) s.l.size s hr (hr.length_le _)
      exact ⟨t, e, .yes (head_ne_none.mp hc.1) hc.2 n⟩
    · rename_i hc
      refine ⟨s, rfl, .no hr ?_⟩
      rw [← head_ne_none]
      exact hc
  obtain ⟨s1, e1, np⟩ := e1
  have hse : ∀ r ∈ s1.seen, ∃ x, s1.c.recs r = some x := fun r mr => by
    obtain ⟨x, hx, _⟩ := np.seenOk hs r mr
    exact ⟨x, hx⟩
  obtain ⟨m', seen', e2, na⟩ := additionals_ok np.inv s1.seen s1.m s1.seen hse
  rw [ite_bind, M.bind_ok e1]
  dsimp only
  rw [M.bind_ok e2]
  dsimp only
  split
  · rename_i h0
    exact ⟨_, _, _, _, rfl, .answers np na h0 (additionals_full np.inv s1.seen s1.m s1.seen hse e2)⟩
  · rename_i h0
    have h0 : s1.ret = 0 := by simpa using h0
    obtain ⟨s2, e3, nb⟩ := outProbe_ok (s := { s1 with m := { m' with qr := false, aa := false } }) np.inv h0
    rw [M.bind_ok e3]
    dsimp only
    split
    · rename_i h2
      exact ⟨_, _, _, _, rfl, .probes np na h0 nb h2⟩
    · rename_i h2
      have h2 : s2.ret = 0 := by simpa using h2
      have hc2 : CInv s2.c := h.recfree (nb.recfree.trans np.recfree)
      obtain ⟨ret, m3, c3, e4, nq⟩ := outQuestions_ok (m := s2.m) hc2
        (hk.imp_right fun u => u.recfree (nb.recfree.trans np.recfree))
      rw [M.bind_ok (liftC_ok e4)]
      dsimp only
      rw [M.bind_ok core_ok]
      split
      · rename_i hg
        obtain ⟨c1, evs, e5, s5, _⟩ := nq.inv.gc env
        rw [M.bind_ok (liftC_ok (a := ()) (c' := { c1 with expireall := c3.now.sec + gcInterval })
          (by rw [e5]; rfl))]
        exact ⟨_, _, _, _, rfl, .questions np na h0 nb h2 nq (.yes nq.inv hg e5)⟩
      · rename_i hg
        exact ⟨_, _, _, _, rfl, .questions np na h0 nb h2 nq (.no nq.inv hg)⟩

theorem outUnicast_ok {c : Core} {l : Lists} (h : RInv c l) {u : Unicast} {us : List Unicast} (hu : c.uanswers = u :: us)
    {x : Rec} (hx : c.recs u.r = some x) :
    ∃ m seen, outUnicast u ⟨c, l⟩ =
        .ok (m, ⟨{ c with uanswers := us, recs := upd c.recs u.r (some { x with lastSent := c.now }) }, l⟩) ∧
      AddL { c with uanswers := us, recs := upd c.recs u.r (some { x with lastSent := c.now }) }
        (Extra { c with uanswers := us, recs := upd c.recs u.r (some { x with lastSent := c.now }) } u.r)
        ((({ id := u.id } : Out).add [.b (.qd x.rr.name x.rr.type c.cls)]).put .an u.r x.rr c.cls) [u.r] m seen ∧
      ∀ r, Extra { c with uanswers := us, recs := upd c.recs u.r (some { x with lastSent := c.now }) } u.r r →
        Served { c with uanswers := us, recs := upd c.recs u.r (some { x with lastSent := c.now }) } [u.r] m r := by
  have h1 : RInv { c with uanswers := us } l := h.dropUnicast hu
  have hn : c.uanswers.drop 1 = us := by rw [hu]; rfl
  have hx1 : ({ c with uanswers := us } : Core).recs u.r = some x := hx
  have h2 := h1.setRec (x' := { x with lastSent := c.now }) hx rfl rfl (h.conf _ x hx) (h.tries _ x hx) (h.ptries _ x hx)
  obtain ⟨m, seen, e, na⟩ := additional_ok h2
    (upd_same ..) ((({ id := u.id } : Out).add [.b (.qd x.rr.name x.rr.type c.cls)]).put .an u.r x.rr c.cls) [u.r]
  refine ⟨m, seen, ?_, na, fun r hr => additional_full h2 e hr⟩
  unfold outUnicast
  rw [M.bind_ok modC_ok, hn, M.bind_ok (getRec_ok hx1), M.bind_ok core_ok]
  dsimp only
  rw [M.bind_ok (modRec_ok hx1), M.bind_ok e]
  rfl

/-- `mdnsd_out` ends normally. -/
theorem outMsg_ok {env : Env} {c : Core} {l : Lists} (h : DInv c l) (now : TV)
    (hk : env.KeepOnExpiry ∨ ({ c with now := now } : Core).Unexpired c.qlist) :
    ∃ ret m to c' l', outMsg env now ⟨c, l⟩ = .ok ((ret, m, to), ⟨c', l'⟩) ∧
      OutMsg env { c with now := now } l ret m to c' l' := by
  have h' : DInv { c with now := now } l := ⟨h.cinv.congr rfl rfl rfl rfl rfl rfl, h.rinv.congr rfl rfl rfl⟩
  unfold outMsg
  rw [M.bind_ok modC_ok]
  have hk : env.KeepOnExpiry ∨ ({ c with now := now } : Core).Unexpired ({ c with now := now } : Core).qlist := hk
  generalize ({ c with now := now } : Core) = c0 at h' hk ⊢
  rw [M.bind_ok core_ok]
  cases hu : c0.uanswers with
  | cons u us =>
    dsimp only
    obtain ⟨x, hx⟩ := Option.isSome_iff_exists.mp (h'.rinv.uans u (by rw [hu]; simp))
    obtain ⟨m, seen, e, na, nf⟩ := outUnicast_ok h'.rinv hu hx
    refine ⟨1, m, u.to, _, l, ?_, .unicast (u := u) (us := us) hu hx na nf⟩
    rw [M.bind_ok e]
    rfl
  | nil =>
    dsimp only
    rw [M.bind_ok qFuel_ok]
    obtain ⟨s1, e1, n1⟩ := rOut_ok (w := .now) (by simp) l.size ⟨c0, l, {}, [], 0⟩ h'.rinv
      (h.rinv.length_le _)
    obtain ⟨s2, e2, n2⟩ := outPublish_ok n1.inv
    rw [M.bind_ok e1]
    dsimp only
    rw [M.bind_ok e2]
    dsimp only
    cases hs : c0.shutdown with
    | true =>
      refine ⟨s2.ret, s2.m, mcast c0.family, s2.c, s2.l, ?_, .shutdown hu n1 n2 hs⟩
      rw [if_pos rfl]
      rfl
    | false =>
      rw [if_neg (by simp)]
      obtain ⟨ret, m, c', l', e3, n3⟩ := outRest_ok (s := s2)
        (hk.imp_right fun u => u.recfree (n2.recfree.trans n1.recfree)) (h'.cinv.recfree (n2.recfree.trans n1.recfree)) n2.inv
        (n2.seenOk (n1.seenOk (.nil _)))
      exact ⟨ret, m, mcast c0.family, c', l', by rw [M.bind_ok e3]; rfl, .normal hu n1 n2 hs n3⟩

end Mdns
