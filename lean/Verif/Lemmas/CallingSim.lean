import Verif.Lemmas.CallingAll
import Verif.Props.Reacting

/-!
# Callbacks that call the library: heads and links, and the cases where only one kind does
-/

namespace Mdns

open M

/-! ### Heads and links -/

namespace Sim

theorem cacheM (f : Core → Res Core) : Sim (Mdns.cacheM f) (Mdns.cacheM f) := by
  unfold Mdns.cacheM
  sim
macro_rules | `(tactic| sim1) => `(tactic| with_reducible apply Sim.cacheM)

theorem callAnswerCb (env : Env) (p : Callbacks) (q : Nat) (rr : Answer) : Sim (Mdns.callAnswerCb env p q rr) (Mdns.callAnswerCb env p q rr) := by
  unfold Mdns.callAnswerCb
  refine bind core fun c => ?_
  cases c.qs q <;> sim
macro_rules | `(tactic| sim1) => `(tactic| with_reducible apply Sim.callAnswerCb)

theorem qAnswerCb (env : Env) (p : Callbacks) (e : Cached) : Sim (Mdns.qAnswerCb env p e) (Mdns.qAnswerCb env p e) := by
  unfold Mdns.qAnswerCb
  cases e.q <;> sim
macro_rules | `(tactic| sim1) => `(tactic| with_reducible apply Sim.qAnswerCb)

theorem cExpireFCb (env : Env) (p : Callbacks) (i : Nat) : ∀ n k, Sim (Mdns.cExpireFCb env p i n k) (Mdns.cExpireFCb env p i n k)
  | 0, _ => hang
  | n + 1, k => by
    have ih := cExpireFCb env p i n
    unfold Mdns.cExpireFCb
    refine bind core fun c => ?_
    cases (c.cache i)[k]? <;> sim
    all_goals exact ih _
macro_rules | `(tactic| sim1) => `(tactic| with_reducible apply Sim.cExpireFCb)

theorem cExpireCb (env : Env) (p : Callbacks) (i : Nat) : Sim (Mdns.cExpireCb env p i) (Mdns.cExpireCb env p i) := by
  unfold Mdns.cExpireCb
  sim
macro_rules | `(tactic| sim1) => `(tactic| with_reducible apply Sim.cExpireCb)

theorem gcLoopCb (env : Env) (p : Callbacks) : ∀ n, Sim (Mdns.gcLoopCb env p n) (Mdns.gcLoopCb env p n)
  | 0 => pure _
  | n + 1 => by
    have ih := gcLoopCb env p n
    unfold Mdns.gcLoopCb
    sim
macro_rules | `(tactic| sim1) => `(tactic| with_reducible apply Sim.gcLoopCb)

theorem gcCb (env : Env) (p : Callbacks) : Sim (Mdns.gcCb env p) (Mdns.gcCb env p) := by
  unfold Mdns.gcCb
  sim
macro_rules | `(tactic| sim1) => `(tactic| with_reducible apply Sim.gcCb)

theorem deleteFCb (env : Env) (p : Callbacks) (r : Resource) (i : Nat) : ∀ n, Sim (Mdns.deleteFCb env p r i n) (Mdns.deleteFCb env p r i n)
  | 0 => hang
  | n + 1 => by
    have ih := deleteFCb env p r i n
    unfold Mdns.deleteFCb
    refine bind core fun c => ?_
    cases (c.cache i).findIdx? (fun e => e.rr.is r.name r.type && aMatch r e.rr) <;> sim
macro_rules | `(tactic| sim1) => `(tactic| with_reducible apply Sim.deleteFCb)

theorem flushCb (env : Env) (p : Callbacks) (r : Resource) : Sim (Mdns.flushCb env p r) (Mdns.flushCb env p r) := by
  unfold Mdns.flushCb
  sim
macro_rules | `(tactic| sim1) => `(tactic| with_reducible apply Sim.flushCb)

theorem insertCb (env : Env) (p : Callbacks) (r : Resource) (src : Addr) : Sim (Mdns.insertCb env p r src) (Mdns.insertCb env p r src) := by
  unfold Mdns.insertCb
  refine bind core fun c => ?_
  dsimp only
  cases (c.cache (bucket r.name lprime)).findIdx? (fun e => e.rr.is r.name r.type && aMatch r e.rr) with
  | some k => exact modC _
  | none =>
    refine bind (liftC _) fun q => bind (modC _) fun _ => ?_
    cases q <;> sim
macro_rules | `(tactic| sim1) => `(tactic| with_reducible apply Sim.insertCb)

theorem cacheInCb (env : Env) (p : Callbacks) (r : Resource) (src : Addr) : Sim (Mdns.cacheInCb env p r src) (Mdns.cacheInCb env p r src) := by
  unfold Mdns.cacheInCb
  sim
macro_rules | `(tactic| sim1) => `(tactic| with_reducible apply Sim.cacheInCb)

theorem inRestCb (env : Env) (p : Callbacks) (src : Addr) (a : Resource) : Sim (Mdns.inRestCb env p src a) (Mdns.inRestCb env p src a) := by
  unfold Mdns.inRestCb
  sim
macro_rules | `(tactic| sim1) => `(tactic| with_reducible apply Sim.inRestCb)

theorem inAnswerCb (env : Env) (p : Callbacks) (src : Addr) (a : Resource) (did : Bool) :
    Sim (Mdns.inAnswerCb env p src a did) (Mdns.inAnswerCb env p src a did) := by
  unfold Mdns.inAnswerCb
  refine bind (rFirst _ _) fun r => ?_
  have key : ∀ bad : Option Nat, Sim
      (match bad with
      | none => do
        Mdns.inRestCb env p src a
        Pure.pure did
      | some r => do
        if !did then M.modC (refreshLocals env true)
        if ← Mdns.isLocal env src then Pure.pure true
        else do
          Mdns.conflictR env p.conflict r
          Mdns.inRestCb env p src a
          Pure.pure true)
      (match bad with
      | none => do
        Mdns.inRestCb env p src a
        Pure.pure did
      | some r => do
        if !did then M.modC (refreshLocals env true)
        if ← Mdns.isLocal env src then Pure.pure true
        else do
          Mdns.conflictR env p.conflict r
          Mdns.inRestCb env p src a
          Pure.pure true) := by
    intro bad
    cases bad <;> sim
  cases r
  · exact bind (pure _) key
  · exact bind (getRec _) fun x => bind (pure _) key
macro_rules | `(tactic| sim1) => `(tactic| with_reducible apply Sim.inAnswerCb)

theorem inAnswersCb (env : Env) (p : Callbacks) (src : Addr) : ∀ l did,
    Sim (Mdns.inAnswersCb env p src l did) (Mdns.inAnswersCb env p src l did)
  | [], _ => pure _
  | q :: rest, did => by
    have ih := inAnswersCb env p src rest
    unfold Mdns.inAnswersCb
    sim
    all_goals exact ih _
macro_rules | `(tactic| sim1) => `(tactic| with_reducible apply Sim.inAnswersCb)

theorem inMsgCb (env : Env) (p : Callbacks) (now : TV) (m : Msg) (src : Addr) :
    Sim (Mdns.inMsgCb env p now m src) (Mdns.inMsgCb env p now m src) := by
  unfold Mdns.inMsgCb
  sim
macro_rules | `(tactic| sim1) => `(tactic| with_reducible apply Sim.inMsgCb)

theorem updateLoopCb (env : Env) (p : Callbacks) : ∀ n o m best ret,
    Sim (Mdns.updateLoopCb env p n o m best ret) (Mdns.updateLoopCb env p n o m best ret)
  | 0, none, _, _, _ => pure _
  | _ + 1, none, _, _, _ => pure _
  | 0, some _, _, _, _ => hang
  | n + 1, some q, m, best, ret => by
    have ih := updateLoopCb env p n
    unfold Mdns.updateLoopCb
    refine bind core fun c => ?_
    cases c.qs q <;> sim
    all_goals exact ih _ _ _ _
macro_rules | `(tactic| sim1) => `(tactic| with_reducible apply Sim.updateLoopCb)

theorem outQuestionsCb (env : Env) (p : Callbacks) (m : Out) : Sim (Mdns.outQuestionsCb env p m) (Mdns.outQuestionsCb env p m) := by
  unfold Mdns.outQuestionsCb
  sim
macro_rules | `(tactic| sim1) => `(tactic| with_reducible apply Sim.outQuestionsCb)

theorem outRestCb (env : Env) (p : Callbacks) (m : Out) (seen : List Nat) (ret : Nat) :
    Sim (Mdns.outRestCb env p m seen ret) (Mdns.outRestCb env p m seen ret) := by
  unfold Mdns.outRestCb
  sim
macro_rules | `(tactic| sim1) => `(tactic| with_reducible apply Sim.outRestCb)

theorem outMsgCb (env : Env) (p : Callbacks) (now : TV) : Sim (Mdns.outMsgCb env p now) (Mdns.outMsgCb env p now) := by
  unfold Mdns.outMsgCb
  refine bind (modC _) fun _ => bind core fun c => ?_
  cases c.uanswers <;> sim
macro_rules | `(tactic| sim1) => `(tactic| with_reducible apply Sim.outMsgCb)

end Sim

theorem stepCb_other {Q : Type} [QOps Q] (env : Env) (p : Callbacks) {o : Op} (h : o.calling = false) :
    (stepCb env p o : M Q OpOut) = step env o := by
  cases o <;> first | rfl | cases h

theorem Sim.stepCb (env : Env) (p : Callbacks) (o : Op) : Sim (Mdns.stepCb env p o) (Mdns.stepCb env p o) := by
  cases o with
  | recv now m src => exact .bind (.inMsgCb env p now m src) fun _ => .pure _
  | send now => exact .bind (.outMsgCb env p now) fun _ => .pure _
  | _ =>
    rw [stepCb_other env p rfl, stepCb_other env p rfl]
    exact Sim.step env _

/-! ### Answer callbacks that only call `mdnsd_query` -/

section
variable {Q : Type} [QOps Q]

/-- The callbacks of a program whose answer callbacks only call `mdnsd_query`. -/
def Prog.with (p : Prog) (r : Reaction) : Callbacks where
  answer c := (p c.log).calls.map fun x => fun _ => .query x.1 x.2.1 x.2.2
  stop c _ := (p c.log).stop
  conflict := r

omit [QOps Q] in
theorem M.bind_run {α β : Type} (x : M Q α) (f : α → M Q β) (d : D Q) : (x >>= f) d = (match x d with
    | .ok (a, d') => f a d'
    | .ub => .ub
    | .hang => .hang) := rfl

omit [QOps Q] in
theorem cacheM_run (f : Core → Res Core) (c : Core) (s : Q) : (cacheM f : M Q Unit) ⟨c, s⟩ = (match f c with
    | .ok c => .ok ((), ⟨c, s⟩)
    | .ub => .ub
    | .hang => .hang) := by
  unfold cacheM liftC
  dsimp only
  cases f c <;> rfl

omit [QOps Q] in
theorem liftC_run {α : Type} (f : Core → Res (α × Core)) (c : Core) (s : Q) : (liftC f : M Q α) ⟨c, s⟩ = (match f c with
    | .ok x => .ok (x.1, ⟨x.2, s⟩)
    | .ub => .ub
    | .hang => .hang) := by
  unfold liftC
  dsimp only
  cases f c <;> rfl

theorem reactWith_query (env : Env) : ∀ (l : List (Bytes × Nat × Option Nat)),
    (reactWith env (l.map fun x => fun _ => .query x.1 x.2.1 x.2.2) : M Q Unit) = cacheM fun c => c.calls l
  | [] => rfl
  | (h, t, a) :: l => by
    funext ⟨c, s⟩
    rw [cacheM_run, List.map_cons]
    unfold reactWith Core.calls
    rw [reactWith_query env l]
    rw [M.bind_ok core_ok, M.bind_run]
    unfold step
    dsimp only
    rw [M.bind_run]
    unfold liftC
    dsimp only
    cases c.query h t a with
    | ok c => exact cacheM_run ..
    | ub => rfl
    | hang => rfl

variable (env : Env) (p : Prog) (r : Reaction)

theorem callAnswerCb_query (q : Nat) (rr : Answer) : (callAnswerCb env (p.with r) q rr : M Q Bool) = liftC fun c => c.callAnswerE p q rr := by
  funext ⟨c, s⟩
  unfold callAnswerCb Core.callAnswerE liftC
  rw [M.bind_ok core_ok]
  dsimp only
  cases c.qs q with
  | none => rfl
  | some x =>
    dsimp only
    rw [M.bind_ok modC_ok, M.bind_ok core_ok]
    unfold Prog.with
    dsimp only
    rw [reactWith_query, M.bind_run, cacheM_run]
    generalize Core.calls _ _ = y
    cases y <;> rfl

theorem qAnswerCb_query (e : Cached) : (qAnswerCb env (p.with r) e : M Q Unit) = cacheM fun c => c.qAnswerE p e := by
  funext ⟨c, s⟩
  rw [cacheM_run]
  unfold qAnswerCb Core.qAnswerE
  cases e.q with
  | none => rfl
  | some q =>
    dsimp only
    rw [callAnswerCb_query, M.bind_run]
    unfold liftC
    dsimp only
    cases c.callAnswerE p q e.rr with
    | ok x =>
      obtain ⟨b, c'⟩ := x
      cases b with
      | true => exact cacheM_run ..
      | false => rfl
    | ub => rfl
    | hang => rfl

theorem cExpireFCb_query (i : Nat) : ∀ (n k : Nat), (cExpireFCb env (p.with r) i n k : M Q Unit) = cacheM fun c => c.cExpireFE p i n k
  | 0, _ => rfl
  | n + 1, k => by
    funext ⟨c, s⟩
    rw [cacheM_run]
    unfold cExpireFCb Core.cExpireFE
    rw [M.bind_ok core_ok]
    cases (c.cache i)[k]? with
    | none => rfl
    | some e =>
      dsimp only
      split
      · rw [M.bind_ok modC_ok, qAnswerCb_query, M.bind_run, cacheM_run]
        generalize Core.qAnswerE _ _ _ = y
        cases y with
        | ok c' =>
          dsimp only
          rw [cExpireFCb_query i n k, cacheM_run]
        | ub => rfl
        | hang => rfl
      · rw [cExpireFCb_query i n (k + 1), cacheM_run]

theorem cExpireCb_query (i : Nat) : (cExpireCb env (p.with r) i : M Q Unit) = cacheM fun c => c.cExpireE p i := by
  funext ⟨c, s⟩
  unfold cExpireCb
  rw [M.bind_ok core_ok, cExpireFCb_query, cacheM_run, cacheM_run]
  rfl

theorem gcLoopCb_query : ∀ (n : Nat), (gcLoopCb env (p.with r) n : M Q Unit) = cacheM fun c => Core.gcE.go p n c
  | 0 => rfl
  | n + 1 => by
    funext ⟨c, s⟩
    rw [cacheM_run]
    unfold gcLoopCb Core.gcE.go
    rw [cExpireCb_query, M.bind_run, cacheM_run, gcLoopCb_query n]
    cases c.cExpireE p (lprime - (n + 1)) with
    | ok c' => exact cacheM_run ..
    | ub => rfl
    | hang => rfl

theorem gcCb_query : (gcCb env (p.with r) : M Q Unit) = cacheM fun c => c.gcE p := by
  funext ⟨c, s⟩
  rw [cacheM_run]
  unfold gcCb Core.gcE
  rw [gcLoopCb_query, M.bind_run, cacheM_run]
  cases Core.gcE.go p lprime c <;> rfl

theorem deleteFCb_query (a : Resource) (i : Nat) : ∀ (n : Nat), (deleteFCb env (p.with r) a i n : M Q Unit) = cacheM fun c => c.deleteFE p a i n
  | 0 => rfl
  | n + 1 => by
    funext ⟨c, s⟩
    rw [cacheM_run]
    unfold deleteFCb Core.deleteFE
    rw [M.bind_ok core_ok]
    cases (c.cache i).findIdx? (fun e => e.rr.is a.name a.type && aMatch a e.rr) with
    | none => rfl
    | some k =>
      dsimp only
      rw [M.bind_ok modC_ok, cExpireCb_query, M.bind_run, cacheM_run, deleteFCb_query a i n]
      cases Core.cExpireE p _ i with
      | ok c' => exact cacheM_run ..
      | ub => rfl
      | hang => rfl

theorem flushCb_query (a : Resource) : (flushCb env (p.with r) a : M Q Unit) = cacheM fun c => c.flushE p a := by
  funext ⟨c, s⟩
  rw [cacheM_run]
  unfold flushCb Core.flushE
  rw [M.bind_ok core_ok]
  dsimp only
  split
  · rw [M.bind_ok modC_ok, cExpireCb_query]
    exact cacheM_run ..
  · rfl

theorem insertCb_query (a : Resource) (src : Addr) : (insertCb env (p.with r) a src : M Q Unit) = cacheM fun c => c.insertE p a src := by
  funext ⟨c, s⟩
  rw [cacheM_run]
  unfold insertCb Core.insertE
  rw [M.bind_ok core_ok]
  dsimp only
  cases (c.cache (bucket a.name lprime)).findIdx? (fun e => e.rr.is a.name a.type && aMatch a e.rr) with
  | some k => rfl
  | none =>
    dsimp only
    cases hq : c.qFind a.name a.type with
    | ok q =>
      rw [M.bind_ok (liftC_ok (a := q) (c' := c) (by rw [hq]; rfl)), M.bind_ok modC_ok]
      cases q with
      | none => rfl
      | some q =>
        dsimp only
        rw [callAnswerCb_query, M.bind_run]
        unfold liftC
        dsimp only
        generalize Core.callAnswerE _ _ _ _ = y
        cases y with
        | ok x =>
          obtain ⟨b, c'⟩ := x
          cases b with
          | true =>
            dsimp only
            rw [if_pos rfl, if_pos rfl]
            exact cacheM_run ..
          | false => rfl
        | ub => rfl
        | hang => rfl
    | ub =>
      rw [M.bind_run]
      unfold liftC
      dsimp only
      rw [hq]
      rfl
    | hang =>
      rw [M.bind_run]
      unfold liftC
      dsimp only
      rw [hq]
      rfl

theorem cacheInCb_query (a : Resource) (src : Addr) : (cacheInCb env (p.with r) a src : M Q Unit) = cacheM fun c => c.cacheInE p a src := by
  funext ⟨c, s⟩
  rw [cacheM_run]
  unfold cacheInCb Core.cacheInE
  rw [flushCb_query, M.bind_run, cacheM_run]
  cases c.flushE p a with
  | ok c' =>
    dsimp only
    rw [M.bind_ok core_ok]
    split
    · rw [deleteFCb_query]
      exact cacheM_run ..
    · rw [insertCb_query]
      exact cacheM_run ..
  | ub => rfl
  | hang => rfl

theorem inRestCb_query (src : Addr) (a : Resource) : (inRestCb env (p.with r) src a : M Q Unit) = inAnswerE.rest p src a := by
  unfold inRestCb inAnswerE.rest
  rw [cacheInCb_query]
  funext ⟨c, l⟩
  rw [M.bind_ok core_ok, M.bind_ok modC_ok]
  dsimp only
  by_cases hc : c.recvCb = true
  · rw [if_pos hc, if_pos hc, M.bind_ok modC_ok, M.bind_ok core_ok]
    rfl
  · rw [if_neg hc, if_neg hc]
    rfl

theorem updateLoopCb_query : ∀ (n : Nat) (o : Option Nat) (m : Out) (best ret : Nat),
    (updateLoopCb env (p.with r) n o m best ret : M Q (Out × Nat × Nat)) = liftC (updateLoopE p n o m best ret)
  | _, none, m, best, ret => by
    funext ⟨c, s⟩
    unfold updateLoopCb liftC
    dsimp only
    unfold updateLoopE
    rfl
  | 0, some _, _, _, _ => rfl
  | n + 1, some q, m, best, ret => by
    funext ⟨c, s⟩
    unfold updateLoopCb
    rw [M.bind_ok core_ok]
    rw [liftC_run]
    unfold updateLoopE
    cases c.qs q with
    | none => rfl
    | some x =>
      dsimp only
      split
      · rw [updateLoopCb_query n, liftC_run]
      · split
        · rw [cExpireCb_query, M.bind_run, cacheM_run]
          cases c.cExpireE p (bucket x.name lprime) with
          | ok c1 =>
            dsimp only
            rw [M.bind_run, cacheM_run]
            cases c1.qReset q with
            | ok c2 =>
              dsimp only
              rw [M.bind_ok core_ok, updateLoopCb_query n, liftC_run]
            | ub => rfl
            | hang => rfl
          | ub => rfl
          | hang => rfl
        · rw [M.bind_ok modC_ok, M.bind_ok core_ok, updateLoopCb_query n, liftC_run]

theorem outQuestionsCb_query (m : Out) : (outQuestionsCb env (p.with r) m : M Q (Out × Nat)) = liftC (outQuestionsE p m) := by
  funext ⟨c, s⟩
  rw [liftC_run]
  unfold outQuestionsCb outQuestionsE
  rw [M.bind_ok core_ok]
  split
  · rw [M.bind_run]
    unfold liftC
    dsimp only
    cases askLoop c c.qlist m 0 with
    | ok x =>
      obtain ⟨m', best⟩ := x
      show ((updateLoopCb env (p.with r) c.qlist.length c.qlist.head? m' best 0 >>= _) : M Q (Out × Nat)) ⟨c, s⟩ = _
      rw [updateLoopCb_query, M.bind_run]
      unfold liftC
      dsimp only
      generalize updateLoopE _ _ _ _ _ _ _ = y
      cases y <;> rfl
    | ub => rfl
    | hang => rfl
  · rfl

theorem outMsgCb_query (now : TV) : (outMsgCb env (p.with r) now : M Q (Nat × Out × Addr)) = outMsgE p now := by
  have h1 : ∀ m seen ret, (outRestCb env (p.with r) m seen ret : M Q (Nat × Out)) = outRestE p m seen ret := by
    intro m seen ret
    unfold outRestCb outRestE
    simp only [outQuestionsCb_query, gcCb_query]
    rfl
  unfold outMsgCb outMsgE
  simp only [h1]
  rfl

end

end Mdns
