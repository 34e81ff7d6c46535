import Verif.Model.Signals

/-!
# C85, C86: signals are obeyed
-/

namespace Mdns.Sig

/-! ### Specification -/

/-- The interface whose configuration is read. -/
def Ev.reads : Ev → Option Nat
  | .read i => some i
  | _ => none

/-- The interfaces are looked up, and then the configuration is read for each of them. -/
def Reloads (es : List Ev) : Prop := ∃ a l b c, es = a ++ .found l :: (b ++ c) ∧ b.filterMap Ev.reads = l

/-- A reload has begun and is not over. -/
def Reloading (es : List Ev) : Prop := ∃ a l b, es = a ++ .found l :: b ∧ .settled ∉ b

/-- A step of the main loop, other than for an interface. -/
def Ev.moves : Ev → Bool
  | .sleep | .wake | .found _ | .settled | .ended | .tau => true
  | _ => false

/-! ### Proofs -/

theorem Run.append {s s1 s2 : St} {a b : List Ev} (h : Run s a s1) (h' : Run s1 b s2) : Run s (a ++ b) s2 := by
  induction h with
  | nil => exact h'
  | cons h _ ih => exact .cons h (ih h')

theorem Run.split {s s2 : St} {a b : List Ev} (h : Run s (a ++ b) s2) : ∃ s1, Run s a s1 ∧ Run s1 b s2 := by
  induction a generalizing s with
  | nil => exact ⟨s, .nil s, h⟩
  | cons e a ih =>
    cases h with
    | cons h r =>
      obtain ⟨s1, r1, r2⟩ := ih r
      exact ⟨s1, .cons h r1, r2⟩

theorem Run.snoc {s s2 : St} {a : List Ev} {e : Ev} (h : Run s (a ++ [e]) s2) : ∃ s1, Run s a s1 ∧ Step s1 e s2 := by
  obtain ⟨s1, r1, r2⟩ := h.split
  cases r2 with
  | cons h r =>
    cases r
    exact ⟨s1, r1, h⟩

/-- A reload is in progress. -/
def Pc.busy : Pc → Bool
  | .reread _ | .pid | .reset => true
  | _ => false

/-- After the loop. -/
def Pc.over : Pc → Bool
  | .finish | .gone => true
  | _ => false

/-- `reload` is looked at before the next `select`. -/
def Pc.soon : Pc → Bool
  | .waiting | .woken _ | .ifRunning | .ifReload | .lookup => true
  | _ => false

theorem Step.over {s s' : St} {e : Ev} (h : Step s e s') (ho : s.pc.over = true) : s'.pc.over = true ∧ e ≠ .sleep := by
  cases h <;> simp_all [Pc.over, Pc.interrupt] <;> (cases hp : s.pc <;> simp_all)

theorem Run.over {s s' : St} {es : List Ev} (h : Run s es s') (ho : s.pc.over = true) : .sleep ∉ es := by
  induction h with
  | nil => simp
  | cons h _ ih =>
    have := h.over ho
    simp only [List.mem_cons, not_or]
    exact ⟨this.2.symm, ih this.1⟩

/-- The reading of the configuration is completed before the next `select`. -/
theorem Run.reread {s s' : St} {es : List Ev} (h : Run s es s') : ∀ {l : List Nat} {p q : List Ev}, s.pc = .reread l →
    es = p ++ .sleep :: q → .sleep ∉ p → ∃ b c, p = b ++ c ∧ b.filterMap Ev.reads = l := by
  induction h with
  | nil => intro l p q _ e; exact absurd e (by simp)
  | @cons s s1 s2 e es h r ih =>
    intro l p q hp he hn
    cases p with
    | nil =>
      cases he
      cases h
      simp_all
    | cons e' p =>
      cases he
      cases l with
      | nil => exact ⟨[], e :: p, rfl, rfl⟩
      | cons i l =>
        have hn' : Ev.sleep ∉ p := fun m => hn (by simp [m])
        cases h with
        | hup hg =>
          obtain ⟨b, c, rfl, hb⟩ := ih (l := i :: l) (by simp [hp, Pc.interrupt]) rfl hn'
          exact ⟨.hup :: b, c, rfl, by rw [List.filterMap_cons]; exact hb⟩
        | term hg =>
          obtain ⟨b, c, rfl, hb⟩ := ih (l := i :: l) (by simp [hp, Pc.interrupt]) rfl hn'
          exact ⟨.term :: b, c, rfl, by rw [List.filterMap_cons]; exact hb⟩
        | read j l' h =>
          rw [hp] at h
          cases h
          obtain ⟨b, c, rfl, hb⟩ := ih (l := l) rfl rfl hn'
          exact ⟨.read i :: b, c, rfl, by simp [Ev.reads, hb]⟩
        | _ => simp_all

/-- A wish that is looked at before the next `select` is fulfilled before it. -/
theorem Run.soon {s s' : St} {es : List Ev} (h : Run s es s') : ∀ {p q : List Ev}, s.pc.soon = true → s.reload = true →
    es = p ++ .sleep :: q → .sleep ∉ p → Reloads p := by
  induction h with
  | nil => intro p q _ _ e; exact absurd e (by simp)
  | @cons s s1 s2 e es h r ih =>
    intro p q hp hr he hn
    cases p with
    | nil =>
      cases he
      cases h
      simp_all [Pc.soon]
    | cons e' p =>
      cases he
      have hn' : Ev.sleep ∉ p := fun m => hn (by simp [m])
      have go : s1.pc.soon = true → s1.reload = true → Reloads (e :: p) := by
        intro h1 h2
        obtain ⟨a, l, b, c, rfl, hb⟩ := ih h1 h2 rfl hn'
        exact ⟨e :: a, l, b, c, rfl, hb⟩
      have dead : s1.pc.over = true → Reloads (e :: p) := fun h1 => absurd (r.over h1) (by simp)
      cases h with
      | lookup l hl =>
        obtain ⟨b, c, rfl, hb⟩ := r.reread (l := l) rfl rfl hn'
        exact ⟨[], l, b, c, rfl, hb⟩
      | hup =>
        refine go ?_ rfl
        cases hs : s.pc <;> simp_all [Pc.soon, Pc.interrupt]
      | term =>
        refine go ?_ hr
        cases hs : s.pc <;> simp_all [Pc.soon, Pc.interrupt]
      | wake => exact go rfl hr
      | woken b => exact go (by simp [hr, Pc.soon]) hr
      | ifRunning =>
        cases hrun : s.running with
        | true => exact go (by simp [hrun, Pc.soon]) hr
        | false => exact dead (by simp [hrun, Pc.over])
      | ifReload => exact go (by simp [hr, Pc.soon]) hr
      | _ => simp_all [Pc.soon]

theorem Run.wish {s s' : St} {es : List Ev} (h : Run s es s') : ∀ {p q : List Ev}, s.pc.busy = false → s.reload = true →
    es = p ++ .sleep :: q → p.count .sleep = 1 → Reloads p := by
  induction h with
  | nil => intro p q _ _ e; exact absurd e (by simp)
  | @cons s s1 s2 e es h r ih =>
    intro p q hp hr he hn
    cases p with
    | nil => simp at hn
    | cons e' p =>
      cases he
      have go : e ≠ .sleep → s1.pc.busy = false → s1.reload = true → Reloads (e :: p) := by
        intro h0 h1 h2
        obtain ⟨a, l, b, c, rfl, hb⟩ := ih h1 h2 rfl (by rwa [List.count_cons_of_ne h0] at hn)
        exact ⟨e :: a, l, b, c, rfl, hb⟩
      cases h with
      | lookup l hl =>
        -- the next `select` comes first
        have : .sleep ∈ p := by
          refine List.count_pos_iff.mp ?_
          rw [List.count_cons_of_ne (by simp)] at hn
          omega
        obtain ⟨p1, p2, rfl, hp1⟩ := List.eq_append_cons_of_mem this
        obtain ⟨b, c, rfl, hb⟩ := r.reread (l := l) rfl (p := p1) (q := p2 ++ .sleep :: q) (by simp) hp1
        exact ⟨[], l, b, c ++ .sleep :: p2, by simp, hb⟩
      | sleep =>
        rw [List.count_cons_self] at hn
        have : Ev.sleep ∉ p := fun m => by
          have := List.count_pos_iff.mpr m
          omega
        obtain ⟨a, l, b, c, rfl, hb⟩ := r.soon rfl hr rfl this
        exact ⟨.sleep :: a, l, b, c, rfl, hb⟩
      | hup =>
        refine go (by simp) ?_ rfl
        cases hs : s.pc <;> simp_all [Pc.busy, Pc.interrupt]
      | term =>
        refine go (by simp) ?_ hr
        cases hs : s.pc <;> simp_all [Pc.busy, Pc.interrupt]
      | head => exact go (by simp) (by cases s.running <;> rfl) hr
      | woken b => exact go (by simp) (by simp [hr, Pc.busy]) hr
      | ifRunning => exact go (by simp) (by cases s.running <;> rfl) hr
      | ifReload => exact go (by simp) (by simp [hr, Pc.busy]) hr
      | wake => exact go (by simp) rfl hr
      | serve => exact go (by simp) hp hr
      | conflict => exact go (by simp) (by simp [hr, Pc.busy]) hr
      | renumber => exact go (by simp) rfl rfl
      | next => exact go (by simp) rfl hr
      | finish => exact go (by simp) rfl hr
      | _ => simp_all [Pc.busy]

/-- The steps of a reload are between two events. -/
theorem Run.reloading {s : St} {es : List Ev} (h : Run {} es s) (hb : s.pc.busy = true) : Reloading es := by
  have gen : ∀ (n : Nat) (es : List Ev) (s : St), es.length = n → Run {} es s → s.pc.busy = true → Reloading es := by
    intro n
    induction n with
    | zero =>
      intro es s hn h hb
      cases es with
      | nil =>
        cases h
        cases hb
      | cons => simp at hn
    | succ n ih =>
      intro es s hn h hb
      rcases List.eq_nil_or_concat es with rfl | ⟨es, e, rfl⟩
      · simp at hn
      · rw [List.concat_eq_append] at h hn ⊢
        obtain ⟨s1, r, h⟩ := h.snoc
        have go : e ≠ .settled → s1.pc.busy = true → Reloading (es ++ [e]) := by
          intro h0 h1
          obtain ⟨a, l, b, rfl, hs⟩ := ih es s1 (by simpa using hn) r h1
          exact ⟨a, l, b ++ [e], by simp, by simp [hs, h0.symm]⟩
        cases h with
        | lookup l => exact ⟨es, l, [], rfl, by simp⟩
        | hup =>
          refine go (by simp) ?_
          cases hs : s1.pc <;> simp_all [Pc.busy, Pc.interrupt]
        | term =>
          refine go (by simp) ?_
          cases hs : s1.pc <;> simp_all [Pc.busy, Pc.interrupt]
        | read _ _ hpc => exact go (by simp) (by rw [hpc]; rfl)
        | readAll hpc => exact go (by simp) (by rw [hpc]; rfl)
        | pid hpc => exact go (by simp) (by rw [hpc]; rfl)
        | head => cases hr : s1.running <;> simp_all [Pc.busy]
        | woken b => cases hr : b || s1.reload <;> simp_all [Pc.busy]
        | ifRunning => cases hr : s1.running <;> simp_all [Pc.busy]
        | ifReload => cases hr : s1.reload <;> simp_all [Pc.busy]
        | conflict => cases hr : s1.reload <;> simp_all [Pc.busy]
        | _ => simp_all [Pc.busy]
  exact gen _ es s rfl h hb

/-- C85 (`src/mdnsd.c:253-256`, `:419-438`): a SIGHUP is obeyed. Wherever it arrives, the daemon waits at most once
before the interfaces have been looked up and the configuration of each been read. What is
missing: it must not arrive while a reload is in progress, see `C85_lost_counterexample`. -/
theorem C85_reloads_partial {pre p q : List Ev} {s s' : St} (h : Run {} pre s) (hr : ¬ Reloading pre)
    (h' : Run s (.hup :: (p ++ .sleep :: q)) s') (hp : p.count .sleep = 1) : Reloads p := by
  have hb : s.pc.busy = false := by
    cases hb : s.pc.busy with
    | false => rfl
    | true => exact absurd (h.reloading hb) hr
  cases h' with
  | cons h1 r =>
    cases h1 with
    | hup hg =>
      refine r.wish ?_ rfl rfl hp
      cases hs : s.pc <;> simp_all [Pc.busy, Pc.interrupt]

theorem Step.stopped {s s' : St} {e : Ev} (h : Step s e s') (hr : s.running = false) : s'.running = false := by
  cases h <;> first | exact hr | rfl

/-- Steps to the end. -/
def Pc.rank : Pc → Nat
  | .gone => 0
  | .finish => 1
  | .head => 2
  | .ifRunning => 2
  | .reset => 3
  | .work => 3
  | .conflict => 3
  | .pid => 4
  | .woken _ => 4
  | .reread _ => 5
  | .waiting => 5
  | .lookup => 6
  | .collect => 6
  | .ifReload => 7

theorem Pc.interrupt_rank (p : Pc) : p.interrupt.rank ≤ p.rank := by cases p <;> simp [Pc.interrupt, Pc.rank]

theorem Pc.interrupt_collect (p : Pc) : p.interrupt = .collect ↔ p = .collect := by cases p <;> simp [Pc.interrupt]

theorem Step.rank {s s' : St} {e : Ev} (h : Step s e s') (hr : s.running = false) :
    s'.pc.rank + (if e.moves then 1 else 0) ≤ s.pc.rank ∧
      (if s'.pc = .collect then 1 else 0) + (if e = .sleep then 1 else 0) ≤ (if s.pc = .collect then 1 else 0) := by
  cases h with
  | hup => simp only [Ev.moves, Pc.interrupt_collect]; simpa using s.pc.interrupt_rank
  | term => simp only [Ev.moves, Pc.interrupt_collect]; simpa using s.pc.interrupt_rank
  | woken b h => simp only [h]; cases hb : b || s.reload <;> simp [Ev.moves, Pc.rank]
  | ifReload h => simp only [h]; cases hb : s.reload <;> simp [Ev.moves, Pc.rank]
  | conflict h => simp only [h]; cases hb : s.reload <;> simp [Ev.moves, Pc.rank]
  | serve h => simp [h, Ev.moves]
  | head h => simp [h, hr, Ev.moves, Pc.rank]
  | ifRunning h => simp [h, hr, Ev.moves, Pc.rank]
  | _ => simp_all [Ev.moves, Pc.rank]

theorem Run.ends {s s' : St} {es : List Ev} (h : Run s es s') (hr : s.running = false) :
    s'.pc.rank + es.countP Ev.moves ≤ s.pc.rank ∧ es.count .sleep ≤ (if s.pc = .collect then 1 else 0) := by
  induction h with
  | nil => simp
  | @cons s s1 s2 e es h r ih =>
    have ih := ih (h.stopped hr)
    have := h.rank hr
    rw [List.countP_cons, List.count_cons]
    have he : (if (e == Ev.sleep) = true then 1 else 0) = (if e = Ev.sleep then 1 else 0) := by
      by_cases h : e = .sleep <;> simp [h]
    omega

/-- C86 (`src/mdnsd.c:248-251`, `:390`, `:421`): a SIGTERM, SIGINT or SIGQUIT is obeyed. Wherever it arrives, the main
loop does at most seven more steps, not counting those for the interfaces and signals, and of these at most
one is waiting for packets. Only the end of `main` stops it before (`C86_goes_on`). -/
theorem C86_ends {es : List Ev} {s s' : St} (h : Run s (.term :: es) s') : es.countP Ev.moves ≤ 7 ∧ es.count .sleep ≤ 1 := by
  cases h with
  | cons h r =>
    cases h with
    | term hg =>
      have := r.ends rfl
      have hk : s.pc.interrupt.rank ≤ 7 := by cases s.pc <;> simp [Pc.interrupt, Pc.rank]
      simp only at this
      refine ⟨by omega, Nat.le_trans this.2 ?_⟩
      split <;> omega

/-- C86: unless `main` has returned there is a next step which is no signal. -/
theorem C86_goes_on {es : List Ev} {s : St} (h : Run {} es s) (hn : .ended ∉ es) : ∃ e s', Step s e s' ∧ e ≠ .hup ∧ e ≠ .term := by
  have gone : ∀ {s0 s : St} {es : List Ev}, Run s0 es s → .ended ∉ es → s0.pc ≠ .gone → s.pc ≠ .gone := by
    intro s0 s es h
    induction h with
    | nil => exact fun _ h => h
    | @cons s s1 s2 e es h r ih =>
      intro hn h0
      refine ih (fun m => hn (by simp [m])) ?_
      cases h with
      | hup => cases hs : s.pc <;> simp_all [Pc.interrupt]
      | term => cases hs : s.pc <;> simp_all [Pc.interrupt]
      | finish => simp at hn
      | serve h => simp [h]
      | _ => simp <;> split <;> simp
  have hg := gone h hn (by decide)
  obtain ⟨pc, ru, re⟩ := s
  cases pc with
  | head => exact ⟨_, _, .head _ rfl, by simp, by simp⟩
  | collect => exact ⟨_, _, .sleep _ rfl, by simp, by simp⟩
  | waiting => exact ⟨_, _, .wake _ rfl, by simp, by simp⟩
  | woken b => exact ⟨_, _, .woken _ b rfl, by simp, by simp⟩
  | ifRunning => exact ⟨_, _, .ifRunning _ rfl, by simp, by simp⟩
  | ifReload => exact ⟨_, _, .ifReload _ rfl, by simp, by simp⟩
  | lookup => exact ⟨_, _, .lookup _ [] rfl, by simp, by simp⟩
  | reread l =>
    cases l with
    | nil => exact ⟨_, _, .readAll _ rfl, by simp, by simp⟩
    | cons i l => exact ⟨_, _, .read _ i l rfl, by simp, by simp⟩
  | pid => exact ⟨_, _, .pid _ rfl, by simp, by simp⟩
  | reset => exact ⟨_, _, .reset _ rfl, by simp, by simp⟩
  | work => exact ⟨_, _, .next _ rfl, by simp, by simp⟩
  | conflict => exact ⟨_, _, .renumber _ rfl, by simp, by simp⟩
  | finish => exact ⟨_, _, .finish _ rfl, by simp, by simp⟩
  | gone => exact absurd rfl hg

/-! ### Samples -/

namespace Sample

/-- A round without signals. -/
def quietRound : List Ev := [.tau, .sleep, .wake, .tau, .served, .tau]

theorem quiet_round : Run {} quietRound {} :=
  .cons (.head {} rfl) <| .cons (.sleep _ rfl) <| .cons (.wake _ rfl) <| .cons (.woken _ false rfl) <| .cons (.serve _ rfl) <|
    .cons (.next _ rfl) (.nil _)

theorem quiet_rounds : ∀ n, ∃ es, Run {} es {} ∧ es.count .sleep = n ∧ ∀ e ∈ es, e = .tau ∨ e = .sleep ∨ e = .wake ∨ e = .served
  | 0 => ⟨[], .nil _, rfl, by simp⟩
  | n + 1 => by
    obtain ⟨es, r, hc, hq⟩ := quiet_rounds n
    refine ⟨quietRound ++ es, quiet_round.append r, ?_, ?_⟩
    · rw [List.count_append, hc]
      show 1 + n = n + 1
      omega
    · intro e m
      rcases List.mem_append.mp m with m | m
      · have : ∀ e ∈ quietRound, e = .tau ∨ e = .sleep ∨ e = .wake ∨ e = .served := by decide
        exact this e m
      · exact hq e m

/-- A SIGHUP interrupts the wait; two interfaces are read again. -/
def reloading : List Ev := [.tau, .sleep, .hup, .tau, .tau, .tau, .found [1, 2], .read 1, .read 2, .tau]

theorem reloading_run : Run {} reloading { pc := .pid, reload := true } :=
  .cons (.head {} rfl) <| .cons (.sleep _ rfl) <| .cons (.hup _ (by decide)) <| .cons (.woken _ true rfl) <| .cons (.ifRunning _ rfl) <|
    .cons (.ifReload _ rfl) <| .cons (.lookup _ [1, 2] rfl) <| .cons (.read _ 1 [2] rfl) <| .cons (.read _ 2 [] rfl) <|
    .cons (.readAll _ rfl) (.nil _)

end Sample

open Sample in
/-- C85: a SIGHUP that arrives between the check of the flags and `select` does not interrupt the wait, but the
configuration is read after it. -/
example : ∃ s s' p q, Run {} [.tau] s ∧ ¬ Reloading [.tau] ∧ Run s (.hup :: (p ++ .sleep :: q)) s' ∧ p.count .sleep = 1 ∧
    p = [.sleep, .wake, .tau, .tau, .tau, .found [1], .read 1, .tau, .tau, .settled, .tau] := by
  refine ⟨{ pc := .collect }, { pc := .waiting }, _, [], .cons (.head {} rfl) (.nil _), ?_, ?_, by decide, rfl⟩
  · rintro ⟨a, l, b, e, _⟩
    have : Ev.found l ∈ [Ev.tau] := by rw [e]; simp
    simp at this
  · exact .cons (.hup _ (by decide)) <| .cons (.sleep _ rfl) <| .cons (.wake _ rfl) <| .cons (.woken _ false rfl) <|
      .cons (.ifRunning _ rfl) <| .cons (.ifReload _ rfl) <| .cons (.lookup _ [1] rfl) <| .cons (.read _ 1 [] rfl) <|
      .cons (.readAll _ rfl) <| .cons (.pid _ rfl) <| .cons (.reset _ rfl) <| .cons (.head _ rfl) <| .cons (.sleep _ rfl) (.nil _)

open Sample in
/-- C85: a SIGHUP that arrives after the configuration has been read and before `reload = 0`
(`src/mdnsd.c:433-434`) is lost: the daemon may then wait for packets as often as one likes, and does not read the configuration again. -/
theorem C85_lost_counterexample : ∃ pre s, Run {} pre s ∧ ∀ n, ∃ es s', Run s (.hup :: es) s' ∧ es.count .sleep = n ∧
    ∀ e ∈ es, e ≠ .hup ∧ e.reads = none := by
  refine ⟨reloading, _, reloading_run, fun n => ?_⟩
  obtain ⟨es, r, hc, hq⟩ := quiet_rounds n
  refine ⟨.tau :: .settled :: es, _, .cons (.hup _ (by decide)) (.cons (.pid _ rfl) (.cons (.reset _ rfl) r)), ?_, ?_⟩
  · rw [List.count_cons_of_ne (by decide), List.count_cons_of_ne (by decide), hc]
  · intro e m
    rcases List.mem_cons.mp m with rfl | m
    · exact ⟨by decide, rfl⟩
    · rcases List.mem_cons.mp m with rfl | m
      · exact ⟨by decide, rfl⟩
      · rcases hq e m with rfl | rfl | rfl | rfl <;> exact ⟨by decide, rfl⟩

open Sample in
/-- C86: a SIGTERM during a reload. -/
example : ∃ s s' es, Run {} reloading s ∧ Run s (.term :: es) s' ∧ s'.pc = .gone ∧ es.countP Ev.moves = 4 ∧ es.count .sleep = 0 :=
  ⟨_, _, [.tau, .settled, .tau, .ended], reloading_run, .cons (.term _ (by decide)) <| .cons (.pid _ rfl) <| .cons (.reset _ rfl) <|
    .cons (.head _ rfl) <| .cons (.finish _ rfl) (.nil _), rfl, by decide, by decide⟩

end Mdns.Sig
