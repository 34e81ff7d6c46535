import Verif.Model.UniAlloc
import Verif.Props.Alloc
import Verif.Props.Bounded

/-!
# C112: questions from other ports when memory runs out
-/

namespace Mdns.Uni

open Mdns M

/-! ## The specification -/

/-- The second list is the first without `n` elements, all of which meet `P`. -/
inductive Lost (P : Unicast → Prop) : Nat → List Unicast → List Unicast → Prop
  | nil : Lost P 0 [] []
  | keep (u : Unicast) {n : Nat} {l l' : List Unicast} : Lost P n l l' → Lost P n (u :: l) (u :: l')
  | drop (u : Unicast) {n : Nat} {l l' : List Unicast} : P u → Lost P n l l' → Lost P (n + 1) (u :: l) l'

/-- How many of `n` requests for memory are refused, from number `k` on. -/
def refused (mem : Nat → Bool) : Nat → Nat → Nat
  | _, 0 => 0
  | k, n + 1 => refused mem (k + 1) n + if mem k then 0 else 1

/-- The second context is the first one, but for at most `n` pending answers that meet `P`. -/
def SameBut {Q : Type} (P : Unicast → Prop) (n : Nat) (d d' : D Q) : Prop :=
  ∃ u k, d' = { d with c := { d.c with uanswers := u } } ∧ Lost P k d.c.uanswers u ∧ k ≤ n

/-! ## Lists -/

theorem Lost.refl {P : Unicast → Prop} : ∀ l, Lost P 0 l l
  | [] => .nil
  | u :: l => .keep u (.refl l)

theorem Lost.mem {P : Unicast → Prop} {n : Nat} {l l' : List Unicast} (h : Lost P n l l') {u : Unicast} (m : u ∈ l') : u ∈ l := by
  induction h with
  | nil => exact m
  | keep v _ ih =>
    rcases List.mem_cons.1 m with e | e
    · exact e ▸ List.mem_cons_self
    · exact List.mem_cons_of_mem _ (ih e)
  | drop v _ _ ih => exact List.mem_cons_of_mem _ (ih m)

theorem Lost.filter {P : Unicast → Prop} {n : Nat} {l l' : List Unicast} (f : Unicast → Bool) (h : Lost P n l l') :
    ∃ k, Lost P k (l.filter f) (l'.filter f) ∧ k ≤ n := by
  induction h with
  | nil => exact ⟨0, .nil, Nat.le_refl _⟩
  | keep u _ ih =>
    obtain ⟨k, h, le⟩ := ih
    by_cases c : f u = true
    · exact ⟨k, by rw [List.filter_cons_of_pos c, List.filter_cons_of_pos c]; exact .keep u h, le⟩
    · exact ⟨k, by rw [List.filter_cons_of_neg c, List.filter_cons_of_neg c]; exact h, le⟩
  | drop u p _ ih =>
    obtain ⟨k, h, le⟩ := ih
    by_cases c : f u = true
    · exact ⟨k + 1, by rw [List.filter_cons_of_pos c]; exact .drop u p h, by omega⟩
    · exact ⟨k, by rw [List.filter_cons_of_neg c]; exact h, by omega⟩

/-! ## Two runs side by side -/

section
variable {Q : Type} {P : Unicast → Prop}

/-- Both do the same, from contexts that differ in `n` pending answers to such that differ in `n + k`. -/
private def Par (P : Unicast → Prop) (k : Nat) {α : Type} (x y : M Q α) : Prop := ∀ n d d', SameBut P n d d' →
  match x d with
  | .ok (a, e) => ∃ e', y d' = .ok (a, e') ∧ SameBut P (n + k) e e'
  | .ub => y d' = .ub
  | .hang => y d' = .hang

private theorem Par.pure {α : Type} (a : α) : Par P 0 (Pure.pure a : M Q α) (Pure.pure a) := fun _ _ d' h => ⟨d', rfl, h⟩

private theorem bindRun {α β : Type} (x : M Q α) (f : α → M Q β) (d : D Q) :
    (x >>= f) d = match x d with | .ok (a, e) => f a e | .ub => .ub | .hang => .hang := rfl

private theorem Par.bind {α β : Type} {k j : Nat} {x y : M Q α} {f g : α → M Q β} (h : Par P k x y)
    (h' : ∀ a, Par P j (f a) (g a)) : Par P (k + j) (x >>= f) (y >>= g) := by
  intro n d d' s
  have := h n d d' s
  rw [bindRun, bindRun]
  cases e : x d with
  | ok p =>
    obtain ⟨a, e1⟩ := p
    rw [e] at this
    obtain ⟨e', q, s'⟩ := this
    rw [q]
    have := h' a _ _ _ s'
    rwa [Nat.add_assoc] at this
  | ub => rw [e] at this; rw [this]
  | hang => rw [e] at this; rw [this]

private theorem Par.bind0 {α β : Type} {k : Nat} {x y : M Q α} {f g : α → M Q β} (h : Par P 0 x y)
    (h' : ∀ a, Par P k (f a) (g a)) : Par P k (x >>= f) (y >>= g) := by
  have := Par.bind h h'
  rwa [Nat.zero_add] at this

/-- Reading the context: what follows must not depend on pending answers. -/
private theorem Par.core {β : Type} {k : Nat} {f g : Core → M Q β}
    (h : ∀ c u, Par P k (f c) (g { c with uanswers := u })) : Par P k (core >>= f) (core >>= g) := by
  intro n d d' s
  have := s
  obtain ⟨u, j, e, l, le⟩ := this
  have h1 := h d.c u n d d' s
  rw [bindRun, bindRun]
  show (match f d.c d with
    | .ok (a, e) => ∃ e', g d'.c d' = .ok (a, e') ∧ SameBut P (n + k) e e'
    | .ub => g d'.c d' = .ub
    | .hang => g d'.c d' = .hang)
  have : d'.c = { d.c with uanswers := u } := by rw [e]
  rw [this]
  exact h1

private theorem Par.modC {f g : Core → Core} (h : ∀ c u, g { c with uanswers := u } = { f c with uanswers := u } ∧
    (f c).uanswers = c.uanswers) : Par P 0 (M.modC f : M Q Unit) (M.modC g) := by
  intro n d d' s
  obtain ⟨u, j, e, l, le⟩ := s
  subst e
  refine ⟨_, rfl, u, j, ?_, ?_, le⟩
  · show D.mk _ _ = _
    rw [(h d.c u).1]
  · show Lost P j (f d.c).uanswers u
    rw [(h d.c u).2]
    exact l

private theorem Par.liftQ {α : Type} (f : Q → Res (α × Q)) : Par P 0 (M.liftQ f) (M.liftQ f) := by
  intro n d d' s
  obtain ⟨u, j, e, l, le⟩ := s
  subst e
  unfold M.liftQ
  cases f d.q with
  | ok p => exact ⟨_, rfl, u, j, rfl, l, le⟩
  | ub => rfl
  | hang => rfl

private theorem Par.getRec (r : Nat) : Par P 0 (M.getRec r : M Q Rec) (M.getRec r) := by
  intro n d d' s
  have s0 := s
  obtain ⟨u, j, e, l, le⟩ := s
  have : d'.c.recs = d.c.recs := by rw [e]
  unfold M.getRec
  rw [this]
  cases d.c.recs r with
  | some x => exact ⟨_, rfl, s0⟩
  | none => rfl

private theorem Par.modRec (r : Nat) (f : Rec → Rec) : Par P 0 (M.modRec r f : M Q Unit) (M.modRec r f) := by
  intro n d d' s
  obtain ⟨u, j, e, l, le⟩ := s
  subst e
  unfold M.modRec
  dsimp only
  cases d.c.recs r with
  | some x => exact ⟨_, rfl, u, j, rfl, l, le⟩
  | none => rfl

private theorem Par.ub {α : Type} : Par P 0 (M.ub : M Q α) M.ub := fun _ _ _ _ => rfl

private theorem Par.hang {α : Type} : Par P 0 (M.hang : M Q α) M.hang := fun _ _ _ _ => rfl

private theorem Par.uRemove (r : Nat) : Par P 0 (uRemove r : M Q Unit) (Mdns.uRemove r) := by
  intro n d d' s
  obtain ⟨u, j, e, l, le⟩ := s
  subst e
  obtain ⟨k, l', le'⟩ := l.filter fun u => u.r != r
  exact ⟨_, rfl, _, k, rfl, l', by omega⟩

private theorem Par.uPushF {P : Unicast → Prop} (mem : Bool) (r id : Nat) (to : Addr) (hp : P ⟨id, to, r⟩) :
    Par P (if mem then 0 else 1) (uPush r id to : M Q Unit) (Mdns.uPushF mem r id to) := by
  intro n d d' s
  obtain ⟨u, j, e, l, le⟩ := s
  subst e
  cases mem with
  | true => exact ⟨_, rfl, _, j, rfl, .keep _ l, le⟩
  | false => exact ⟨_, rfl, _, j + 1, rfl, .drop _ hp l, by simpa using le⟩

set_option linter.unusedSectionVars false

variable [QOps Q]

private theorem Par.rScan (host : Bytes) (type : Nat) : ∀ l, Par P 0 (rScan host type l : M Q _) (Mdns.rScan host type l)
  | [] => .pure _
  | r :: rest => .bind0 (.getRec r) fun x => by
    try dsimp only
    split
    · exact .pure _
    · exact .rScan host type rest

private theorem Par.rFirst (host : Bytes) (type : Nat) : Par P 0 (rFirst host type : M Q _) (Mdns.rFirst host type) :=
  .core fun _ _ => .rScan _ _ _

private theorem Par.rNext (r : Nat) (host : Bytes) (type : Nat) : Par P 0 (rNext r host type : M Q _) (Mdns.rNext r host type) :=
  .bind0 (.bind0 (.getRec r) fun _ => .core fun _ _ => .pure _) fun _ => .rScan _ _ _

private theorem Par.rSend (r : Nat) : Par P 0 (rSend r : M Q Unit) (Mdns.rSend r) :=
  .bind0 (.getRec r) fun x => by
    try dsimp only
    split
    · exact .modC fun _ _ => ⟨rfl, rfl⟩
    · split
      · exact .bind0 (.liftQ _) fun _ => .liftQ _
      · exact .bind0 (.modC fun _ _ => ⟨rfl, rfl⟩) fun _ => .bind0 (.liftQ _) fun _ => .liftQ _

private theorem Par.done (r : Nat) : Par P 0 (done r : M Q Unit) (Mdns.done r) :=
  .bind0 (.getRec r) fun x => by
    try dsimp only
    split
    · exact .bind0 (.liftQ _) fun _ => .bind0 (.getRec r) fun _ => .bind0 (.modC fun _ _ => ⟨rfl, rfl⟩) fun _ =>
        .bind0 (.uRemove r) fun _ => .bind0 (.getRec r) fun _ => .bind0 (.modC fun _ _ => ⟨rfl, rfl⟩) fun _ => .liftQ _
    · exact .bind0 (.modRec r _) fun _ => .rSend r

private theorem Par.conflict (r : Nat) : Par P 0 (conflict r : M Q Unit) (Mdns.conflict r) :=
  .bind0 (.getRec r) fun x => by
    try dsimp only
    split
    · exact .ub
    · exact .bind0 (.modC fun _ _ => ⟨rfl, rfl⟩) fun _ => .done r

private theorem refresh_uni (env : Env) (b : Bool) (c : Core) (u : List Unicast) :
    refreshLocals env b { c with uanswers := u } = { refreshLocals env b c with uanswers := u } ∧
      (refreshLocals env b c).uanswers = c.uanswers := by
  unfold refreshLocals
  dsimp only
  split
  · exact ⟨rfl, rfl⟩
  · split <;> exact ⟨rfl, rfl⟩

private theorem Par.isLocal (env : Env) (src : Addr) : Par P 0 (isLocal env src : M Q Bool) (Mdns.isLocal env src) :=
  .core fun c u => by
    try dsimp only
    split
    · split
      · exact .pure _
      · exact .bind0 (.modC (refresh_uni env _)) fun _ => .core fun _ _ => .pure _
    · split
      · exact .pure _
      · exact .bind0 (.modC (refresh_uni env _)) fun _ => .core fun _ _ => .pure _

private theorem Par.received (a : Resource) :
    Par P 0 (M.modC fun c => if c.recvCb then { c with log := c.log ++ [Event.received a] } else c : M Q Unit)
      (M.modC fun c => if c.recvCb then { c with log := c.log ++ [Event.received a] } else c) :=
  .modC fun c u => by
    try dsimp only
    split <;> exact ⟨rfl, rfl⟩

private theorem Par.probeConflict (env : Env) (src : Addr) (q : Question) (r : Nat) : ∀ (an : List Resource) (did : Bool),
    Par P 0 (probeConflict env src q r an did : M Q _) (Mdns.probeConflict env src q r an did)
  | [], _ => .pure _
  | a :: rest, did => by
    unfold Mdns.probeConflict
    split
    · refine .bind0 (.getRec r) fun x => ?_
      dsimp only
      split
      · exact Par.probeConflict env src q r rest did
      · have tail : Par P 0 (do if ← Mdns.isLocal env src then Mdns.probeConflict env src q r rest true
                                 else do Mdns.conflict r; Pure.pure (true, true) : M Q (Bool × Bool))
            (do if ← Mdns.isLocal env src then Mdns.probeConflict env src q r rest true
                else do Mdns.conflict r; Pure.pure (true, true)) := by
          refine .bind0 (.isLocal env src) fun b => ?_
          split
          · exact Par.probeConflict env src q r rest true
          · exact .bind0 (.conflict r) fun _ => .pure _
        split
        · exact .bind0 (.modC (refresh_uni env _)) fun _ => tail
        · exact tail
    · exact Par.probeConflict env src q r rest did

private theorem Par.knownAnswer (q : Question) (r : Nat) : ∀ (an : List Resource),
    Par P 0 (knownAnswer q r an : M Q Bool) (Mdns.knownAnswer q r an)
  | [] => .pure _
  | a :: rest => by
    unfold Mdns.knownAnswer
    split
    · refine .bind0 (.received a) fun _ => .bind0 (.getRec r) fun x => ?_
      split
      · exact .pure _
      · exact Par.knownAnswer q r rest
    · exact Par.knownAnswer q r rest

private theorem Par.answerLoop (env : Env) (src : Addr) (q : Question) (an : List Resource) : ∀ (fuel : Nat) (r : Option Nat)
    (did conf : Bool), Par P 0 (answerLoop env src q an fuel r did conf : M Q _) (Mdns.answerLoop env src q an fuel r did conf)
  | 0, none, _, _ => .pure _
  | _ + 1, none, _, _ => .pure _
  | 0, some _, _, _ => .hang
  | fuel + 1, some r, did, conf => by
    unfold Mdns.answerLoop
    refine .bind0 (.getRec r) fun x => .bind0 (.rNext r _ _) fun next => ?_
    split
    · exact .bind0 (.probeConflict env src q r an did) fun p => Par.answerLoop env src q an fuel next _ _
    · refine .bind0 (.knownAnswer q r an) fun known => ?_
      dsimp only
      split
      · exact .bind0 (.rSend r) fun _ => Par.answerLoop env src q an fuel next _ _
      · exact Par.answerLoop env src q an fuel next _ _

private theorem Par.discoLoop (q : Question) : ∀ (fuel : Nat) (r : Option Nat),
    Par P 0 (discoLoop q fuel r : M Q Unit) (Mdns.discoLoop q fuel r)
  | 0, none => .pure _
  | _ + 1, none => .pure _
  | 0, some _ => .hang
  | fuel + 1, some r => by
    unfold Mdns.discoLoop
    refine .bind0 (.getRec r) fun x => ?_
    try dsimp only
    split
    · exact .bind0 (.rSend r) fun _ => .bind0 (.rNext r _ _) fun next => Par.discoLoop q fuel next
    · exact .bind0 (.rNext r _ _) fun next => Par.discoLoop q fuel next

private theorem Par.mono {α : Type} {k j : Nat} {x y : M Q α} (h : Par P k x y) (le : k ≤ j) : Par P j x y := by
  intro n d d' s
  have := h n d d' s
  cases e : x d with
  | ok p =>
    rw [e] at this
    obtain ⟨e', q, u, i, a, b, c⟩ := this
    exact ⟨e', q, u, i, a, b, by omega⟩
  | ub => rw [e] at this; exact this
  | hang => rw [e] at this; exact this

/-- A pending answer to this message. -/
def To (m : Msg) (src : Addr) (u : Unicast) : Prop := u.id = m.id ∧ u.to = src

private theorem Par.inQuestion (env : Env) (m : Msg) (src : Addr) (mem : Bool) (q : Question) (did : Bool) :
    Par (To m src) (if mem then 0 else 1) (inQuestion env m src q did : M Q Bool) (inQuestionU env m src mem q did) := by
  have up : ∀ start, Par (To m src) (if mem then 0 else 1) (uPush start m.id src : M Q Unit) (Mdns.uPushF mem start m.id src) :=
    fun start => .uPushF mem start m.id src ⟨rfl, rfl⟩
  generalize (if mem then 0 else 1) = j at up ⊢
  refine .core fun c u => ?_
  dsimp only
  split
  · exact (Par.pure _).mono (Nat.zero_le _)
  · refine .bind0 (.rFirst _ _) fun r => ?_
    cases r with
    | none => exact (Par.pure _).mono (Nat.zero_le _)
    | some start =>
      refine .bind0 (.liftQ _) fun n => ?_
      split
      · refine Par.mono (k := 0) ?_ (Nat.zero_le _)
        exact .bind0 (.modC fun _ _ => ⟨rfl, rfl⟩) fun _ => .bind0 (.discoLoop q n _) fun _ => .pure _
      · refine .bind0 (.answerLoop env src q m.an n _ did false) fun p => ?_
        split
        · exact .bind (up start) fun _ => .pure _
        · exact (Par.pure _).mono (Nat.zero_le _)

private theorem Par.inQuestions (env : Env) (m : Msg) (src : Addr) (mem : Nat → Bool) : ∀ (qs : List Question) (k : Nat) (did : Bool),
    Par (To m src) (refused mem k qs.length) (inQuestions env m src qs did : M Q Unit) (inQuestionsU env m src mem k qs did)
  | [], _, _ => .pure _
  | q :: rest, k, did => by
    have := Par.bind (Par.inQuestion (Q := Q) env m src (mem k) q did)
      fun did => Par.inQuestions env m src mem rest (k + 1) did
    exact this.mono (by simp only [refused, List.length_cons]; omega)

private theorem same_refl {P : Unicast → Prop} {n : Nat} (d : D Q) : SameBut P n d d := ⟨_, 0, rfl, .refl _, Nat.zero_le _⟩

private theorem Par.inMsg (env : Env) (now : TV) (m : Msg) (src : Addr) (mem : Nat → Bool) (d : D Q) :
    match Mdns.inMsg env now m src d with
    | .ok (a, e) => ∃ e', inMsgU env now m src mem d = .ok (a, e') ∧ SameBut (To m src) (refused mem 0 m.qd.length) e e'
    | .ub => inMsgU env now m src mem d = .ub
    | .hang => inMsgU env now m src mem d = .hang := by
  by_cases hq : m.header.qr = true
  · have e : inMsgU env now m src mem d = Mdns.inMsg env now m src d := by
      unfold inMsgU Mdns.inMsg
      simp [hq]
    rw [e]
    cases Mdns.inMsg env now m src d with
    | ok p => exact ⟨_, rfl, same_refl _⟩
    | ub => rfl
    | hang => rfl
  · have : Par (To m src) (refused mem 0 m.qd.length) (Mdns.inMsg env now m src : M Q Nat) (inMsgU env now m src mem) := by
      refine .core fun c u => ?_
      dsimp only
      split
      · exact (Par.pure _).mono (Nat.zero_le _)
      · refine .bind0 (.modC fun _ _ => ⟨rfl, rfl⟩) fun _ => .bind0 (.isLocal env src) fun b => ?_
        split
        · exact (Par.pure _).mono (Nat.zero_le _)
        · simp only [hq]
          exact .bind (Par.inQuestions env m src mem m.qd 0 false) fun _ => .pure _
    have := this 0 d d (same_refl d)
    rw [Nat.zero_add] at this
    cases e : Mdns.inMsg env now m src d with
    | ok p => rw [e] at this; exact this
    | ub => rw [e] at this; exact this
    | hang => rw [e] at this; exact this

end

/-! ## The theorems -/

/-- **C112.** Whatever memory is refused, receiving a message does what it does with enough memory, with the same result, in every
state; only some pending answers to this very message may be missing, not more than requests that were refused. -/
theorem C112_same {Q : Type} [QOps Q] (env : Env) (now : TV) (m : Msg) (src : Addr) (mem : Nat → Bool) (d : D Q) :
    match inMsg env now m src d with
    | .ok (a, e) => ∃ e', inMsgU env now m src mem d = .ok (a, e') ∧
        SameBut (fun u => u.id = m.id ∧ u.to = src) (refused mem 0 m.qd.length) e e'
    | .ub => inMsgU env now m src mem d = .ub
    | .hang => inMsgU env now m src mem d = .hang := Par.inMsg env now m src mem d

private theorem refused_none {mem : Nat → Bool} : ∀ (n k : Nat), (∀ i, i < n → mem (k + i) = true) → refused mem k n = 0
  | 0, _, _ => rfl
  | n + 1, k, h => by
    have h0 : mem k = true := by simpa using h 0 (Nat.succ_pos n)
    simp only [refused, h0, if_true, Nat.add_zero]
    refine refused_none n (k + 1) fun i hi => ?_
    have := h (i + 1) (Nat.succ_lt_succ hi)
    rwa [show k + 1 + i = k + (i + 1) by omega]

private theorem Lost.zero {P : Unicast → Prop} {n : Nat} {l l' : List Unicast} (h : Lost P n l l') (e : n = 0) : l' = l := by
  induction h with
  | nil => rfl
  | keep u _ ih => rw [ih e]
  | drop _ _ _ _ => cases e

/-- **C112.** With enough memory it is the code of all other properties. -/
theorem C112_enough {Q : Type} [QOps Q] (env : Env) (now : TV) (m : Msg) (src : Addr) (mem : Nat → Bool) (d : D Q)
    (h : ∀ i, i < m.qd.length → mem i = true) : inMsgU env now m src mem d = inMsg env now m src d := by
  have := C112_same env now m src mem d
  cases e : inMsg env now m src d with
  | ok p =>
    rw [e] at this
    obtain ⟨e', h1, u, k, h2, h3, h4⟩ := this
    rw [refused_none _ 0 (fun i hi => by rw [Nat.zero_add]; exact h i hi)] at h4
    rw [h1, h2, Lost.zero h3 (Nat.le_zero.1 h4)]
  | ub => rw [e] at this; exact this
  | hang => rw [e] at this; exact this

/-- The states that calls lead to, some of them with too little memory: as in C96, and for pending answers. -/
inductive ReachU (env : Env) : D Ptrs → Prop
  | new (cls frame : Nat) (now : TV) : ReachU env (newD cls frame now)
  | step {d d' : D Ptrs} {o : Op} {a : OpOut} (h : ReachU env d) (hs : OpSafe env d.c d.q.walk o)
      (e : Mdns.step env o d = .ok (a, d')) : ReachU env d'
  | fail {d d' : D Ptrs} {f : Fail} (h : ReachU env d) (hs : FailSafe d.c f)
      (e : Mdns.stepFail env f d = .ok ((), d')) : ReachU env d'
  | recv {d d' : D Ptrs} {a : Nat} (h : ReachU env d) (now : TV) (m : Msg) (src : Addr) (mem : Nat → Bool)
      (hs : OpSafe env d.c d.q.walk (.recv now m src)) (e : inMsgU env now m src mem d = .ok (a, d')) : ReachU env d'

private theorem rep_recv {env : Env} {d : D Ptrs} {l : Lists} (h : Rep d l) (now : TV) (m : Msg) (src : Addr) (mem : Nat → Bool)
    (hs : OpSafe env d.c d.q.walk (.recv now m src)) : ∃ a d' l', inMsgU env now m src mem d = .ok (a, d') ∧ Rep d' l' := by
  obtain ⟨a, d1, l1, e, _, h1⟩ := h.step (.recv now m src) hs
  have := C112_same env now m src mem d
  cases e2 : inMsg env now m src d with
  | ok p =>
    rw [e2] at this
    obtain ⟨e', i1, u, k, i2, i3, _⟩ := this
    have e3 : p.2 = d1 := by
      have : Mdns.step env (.recv now m src) d = .ok (.unit, p.2) := by
        show (inMsg env now m src >>= _) d = _
        rw [bindRun, e2]
        rfl
      rw [this] at e
      cases e
      rfl
    refine ⟨p.1, e', l1, i1, ?_, ?_⟩
    · rw [i2, e3]
      exact h1.rq
    · rw [i2, e3]
      rw [e3] at i3
      refine ⟨h1.inv.cinv.congr rfl rfl rfl rfl rfl rfl, ?_⟩
      have r := h1.inv.rinv
      exact { r with uans := fun v hv => r.uans v (i3.mem hv) }
  | ub =>
    have : Mdns.step env (.recv now m src) d = .ub := by
      show (inMsg env now m src >>= _) d = _
      rw [bindRun, e2]
    rw [this] at e
    cases e
  | hang =>
    have : Mdns.step env (.recv now m src) d = .hang := by
      show (inMsg env now m src >>= _) d = _
      rw [bindRun, e2]
    rw [this] at e
    cases e

theorem ReachU.rep {env : Env} {d : D Ptrs} (h : ReachU env d) : ∃ l, Rep d l := by
  induction h with
  | new cls frame now => exact ⟨_, newD_rep cls frame now⟩
  | step _ hs e ih =>
    obtain ⟨l, hr⟩ := ih
    obtain ⟨a', d'', l', e', _, hr'⟩ := hr.step _ hs
    rw [e] at e'
    cases e'
    exact ⟨l', hr'⟩
  | fail _ hs e ih =>
    obtain ⟨l, hr⟩ := ih
    obtain ⟨d'', l', e', hr'⟩ := hr.fail (env := env) _ hs
    rw [e] at e'
    cases e'
    exact ⟨l', hr'⟩
  | recv _ now m src mem hs e ih =>
    obtain ⟨l, hr⟩ := ih
    obtain ⟨a', d'', l', e', hr'⟩ := rep_recv hr now m src mem hs
    rw [e] at e'
    cases e'
    exact ⟨l', hr'⟩

/-- **C112.** However often memory was refused before, in whatever calls, no call is undefined or hangs; as in C96, if the `strdup` of
names in received data succeeds. -/
theorem C112_sound_partial {env : Env} {d : D Ptrs} (h : ReachU env d) :
    (∀ o, OpSafe env d.c d.q.walk o → ∃ a d', Mdns.step env o d = .ok (a, d')) ∧
      (∀ f, FailSafe d.c f → ∃ d', Mdns.stepFail env f d = .ok ((), d')) ∧
      ∀ now m src mem, OpSafe env d.c d.q.walk (.recv now m src) → ∃ a d', inMsgU env now m src mem d = .ok (a, d') := by
  obtain ⟨l, hr⟩ := h.rep
  refine ⟨fun o hs => ?_, fun f hs => ?_, fun now m src mem hs => ?_⟩
  · obtain ⟨a, d', _, e, _⟩ := hr.step o hs
    exact ⟨a, d', e⟩
  · obtain ⟨d', _, e, _⟩ := hr.fail (env := env) f hs
    exact ⟨d', e⟩
  · obtain ⟨a, d', _, e, _⟩ := rep_recv hr now m src mem hs
    exact ⟨a, d', e⟩

/-! ## Cases -/

section Sample
open Mdns.Sample

/-- Two questions in one message, from another port; for the first answer there is no memory. -/
def two : Msg := { ask (nm 97) 1 with id := 9, qd := [⟨nm 97, 1, 1⟩, ⟨nm 97, 255, 1⟩] }

def settled : D Ptrs := (trace quiet announced fresh).2

def pending (x : Res (Nat × D Ptrs)) : List (Nat × Nat) := match x with
  | .ok (_, d) => d.c.uanswers.map fun u => (u.id, u.r)
  | _ => []

def queued (x : Res (Nat × D Ptrs)) : List Nat := match x with
  | .ok (_, d) => d.lists.q .pause
  | _ => []

def code (x : Res (Nat × D Ptrs)) : Option Nat := match x with
  | .ok (a, _) => some a
  | _ => none

/-- The record is sent to everyone all the same. -/
example : pending (inMsg quiet (at_ 110) two lone settled) = [(9, 0), (9, 0)] ∧
    pending (inMsgU quiet (at_ 110) two lone (fun k => k == 1) settled) = [(9, 0)] ∧
    queued (inMsg quiet (at_ 110) two lone settled) = [0] ∧
    queued (inMsgU quiet (at_ 110) two lone (fun k => k == 1) settled) = [0] := by decide +kernel

/-- **C112**, what is missing: the one who asked from another port gets no answer of their own, and is not told so. -/
theorem C112_silent_counterexample : ∃ (d d' : D Ptrs) (m : Msg), Reach quiet d ∧ OpSafe quiet d.c d.q.walk (.recv (at_ 110) m lone) ∧
    pending (inMsg quiet (at_ 110) m lone d) = [(9, 0)] ∧ inMsgU quiet (at_ 110) m lone (fun _ => false) d = .ok (0, d') ∧
    d'.c.uanswers = [] := by
  have e : pending (inMsgU quiet (at_ 110) { ask (nm 97) 1 with id := 9 } lone (fun _ => false) settled) = [] ∧
      code (inMsgU quiet (at_ 110) { ask (nm 97) 1 with id := 9 } lone (fun _ => false) settled) = some 0 := by decide +kernel
  cases h : inMsgU quiet (at_ 110) { ask (nm 97) 1 with id := 9 } lone (fun _ => false) settled with
  | ok p =>
    obtain ⟨a, d'⟩ := p
    rw [h] at e
    refine ⟨settled, d', { ask (nm 97) 1 with id := 9 }, reach_of (by decide +kernel), ?_, ?_, ?_, List.map_eq_nil_iff.1 e.1⟩
    · intro a ha; cases ha
    · decide +kernel
    · rw [h]
      exact congrArg (fun a => Res.ok (a, d')) (Option.some.inj e.2)
  | ub => rw [h] at e; exact absurd e.2 (by decide)
  | hang => rw [h] at e; exact absurd e.2 (by decide)

end Sample

end Mdns.Uni
