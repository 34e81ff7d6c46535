import Verif.Model.Pidfile
import Verif.Lemmas.Ascii

/-!
# C90: the pid file
-/

namespace Mdns.Pid

/-- The last time someone else touched the file in the history, if ever, they removed it. -/
def Undisturbed (ops : List Op) : Prop :=
  ∀ pre f post, ops = pre ++ .other f :: post → (∀ o ∈ post, ∃ io, o = .call io) → f = none

/-- The process has started: the file is whatever was left behind, and nothing is known. -/
def fresh (left : Option Bytes) : Option Bool × St := (none, { file := left })

/-- A file with the number of a process, on a line of its own. -/
def numbered (pid : Nat) : Bytes := numeral 10 pid ++ ascii "\n"

theorem text_numbered (pid : Nat) : text pid = numbered pid := by
  unfold text numbered
  rw [decimal_numeral]
  rfl

theorem run_append (self : Nat) (a b : List Op) : ∀ s, run self (a ++ b) s = run self b (run self a s) := by
  induction a with
  | nil => exact fun _ => rfl
  | cons o t ih => cases o <;> (intro s; exact ih _)

theorem snoc {p : List Op → Prop} (hnil : p []) (hsnoc : ∀ l o, p l → p (l ++ [o])) (l : List Op) : p l := by
  rw [← List.reverse_reverse l]
  generalize l.reverse = r
  induction r with
  | nil => exact hnil
  | cons o r ih => rw [List.reverse_cons]; exact hsnoc _ _ ih

/-- What holds between calls: the path is known exactly if the last call succeeded, and then the number of the process is
noted and the handler is registered. -/
structure Ok (me : Nat) (r : Option Bool × St) : Prop where
  path : r.2.path = true ↔ r.1 = some true
  pid : r.2.path = true → r.2.pid = me ∧ 0 < r.2.hooks

theorem Ok.fresh (self : Nat) (left : Option Bytes) : Ok self (fresh left) :=
  ⟨⟨fun h => by simp [Pid.fresh] at h, fun h => by simp [Pid.fresh] at h⟩, fun h => by simp [Pid.fresh] at h⟩

/-- What one call does. -/
theorem call_spec (io : Io) (self : Nat) (s : St) (hs : s.path = true → s.pid = self ∧ 0 < s.hooks) :
    ((pidfile io self s).2.path = (pidfile io self s).1) ∧
    ((pidfile io self s).2.path = true → (pidfile io self s).2.pid = self ∧ 0 < (pidfile io self s).2.hooks) ∧
    ((pidfile io self s).1 = true → (pidfile io self s).2.file = some (text self) ∨
      s.path = true ∧ s.file.isSome ∧ io.access = true ∧ (pidfile io self s).2.file = s.file) ∧
    ((pidfile io self s).1 = false → io.unlink = true →
      (pidfile io self s).2.file = none ∨
        (io.asprintf = false ∨ io.fopen = false) ∧ (pidfile io self s).2.file = s.file) := by
  obtain ⟨a, me, fo, pr, ul, ae⟩ := io
  obtain ⟨fl, pa, pi, hk⟩ := s
  cases pa with
  | true =>
    obtain ⟨rfl, hh⟩ := hs rfl
    cases fl with
    | none => cases me <;> cases fo <;> cases pr <;> cases ul <;> cases ae <;> simp [pidfile, write, unlink, hh]
    | some b => cases a <;> cases me <;> cases fo <;> cases pr <;> cases ul <;> cases ae <;> simp [pidfile, write, unlink, hh]
  | false => cases me <;> cases fo <;> cases pr <;> cases ul <;> cases ae <;> simp [pidfile, write, unlink]

theorem Ok.run (self : Nat) (left : Option Bytes) (ops : List Op) : Ok self (run self ops (Pid.fresh left)) := by
  induction ops using snoc with
  | hnil => exact .fresh self left
  | hsnoc l o ih =>
    rw [run_append]
    cases o with
    | other f => exact ⟨ih.path, ih.pid⟩
    | call io =>
      obtain ⟨h1, h2, -⟩ := call_spec io self (Pid.run self l (Pid.fresh left)).2 ih.pid
      refine ⟨?_, h2⟩
      show (pidfile io self _).2.path = true ↔ some (pidfile io self _).1 = some true
      rw [h1, Option.some.injEq]

/-- **C90 (written).** After any history of calls that succeed or fail: when a call gives 0, the file holds the number of
the process, unless someone else has put something in its place (removing it does no harm). -/
theorem C90_written_partial (self : Nat) (left : Option Bytes) (ops : List Op) (io : Io) (hu : Undisturbed ops)
    (h : (run self (ops ++ [.call io]) (fresh left)).1 = some true) :
    (run self (ops ++ [.call io]) (fresh left)).2.file = some (numbered self) := by
  rw [← text_numbered]
  -- while the path is known the file is ours, or gone
  have inv : ∀ ops, Undisturbed ops → (run self ops (fresh left)).2.path = true →
      (run self ops (fresh left)).2.file = some (text self) ∨ (run self ops (fresh left)).2.file = none := by
    intro ops
    induction ops using snoc with
    | hnil => intro _ h; simp [run, fresh] at h
    | hsnoc l o ih =>
      intro hu
      rw [run_append]
      cases o with
      | other f =>
        have : f = none := hu l f [] rfl (by simp)
        subst this
        exact fun _ => .inr rfl
      | call io =>
        have hl : Undisturbed l := by
          intro pre f post e hp
          refine hu pre f (post ++ [.call io]) (by rw [e]; simp) ?_
          intro o ho
          rcases List.mem_append.1 ho with ho | ho
          · exact hp o ho
          · exact ⟨io, List.mem_singleton.1 ho⟩
        obtain ⟨h1, -, h3, -⟩ := call_spec io self (run self l (fresh left)).2 (Ok.run self left l).pid
        intro hp
        change (pidfile io self _).2.path = true at hp
        rcases h3 (h1 ▸ hp) with h3 | ⟨hp, hs, -, h3⟩
        · exact .inl h3
        · rcases ih hl hp with h | h
          · exact .inl (h3.trans h)
          · rw [h] at hs; cases hs
  rw [run_append] at h ⊢
  obtain ⟨-, -, h3, -⟩ := call_spec io self (run self ops (fresh left)).2 (Ok.run self left ops).pid
  rcases h3 (Option.some.inj h) with h3 | ⟨hp, hs, -, h3⟩
  · exact h3
  · rcases inv ops hu hp with h | h
    · exact h3.trans h
    · rw [h] at hs; cases hs

/-- **C90 (failed).** When a call gives -1 the file is gone, or it could not be opened, or there was no memory for its name, and it is
as it was; if nothing else fails. -/
theorem C90_failed (self : Nat) (left : Option Bytes) (ops : List Op) (io : Io) (hu : io.unlink = true)
    (h : (run self (ops ++ [.call io]) (fresh left)).1 = some false) :
    (run self (ops ++ [.call io]) (fresh left)).2.file = none ∨
      (io.asprintf = false ∨ io.fopen = false) ∧
        (run self (ops ++ [.call io]) (fresh left)).2.file = (run self ops (fresh left)).2.file := by
  rw [run_append] at h ⊢
  obtain ⟨-, -, -, h4⟩ := call_spec io self (run self ops (fresh left)).2 (Ok.run self left ops).pid
  exact h4 (Option.some.inj h) hu

theorem exit_idle (ok : Bool) (self : Nat) : ∀ n (s : St), s.path = false → exit.go ok self n s = s
  | 0, _, _ => rfl
  | n + 1, s, h => by
    unfold exit.go
    rw [show cleanup ok self s = s by simp [cleanup, h]]
    exact exit_idle ok self n s h

/-- **C90 (removed).** When the process ends, however often calls have failed and succeeded before: after a last call that
gave 0 the file is removed, if the system allows; otherwise the file is not touched. -/
theorem C90_removed (self : Nat) (left : Option Bytes) (ops : List Op) (ok : Bool) :
    (exit ok self (run self ops (fresh left)).2).file =
      if (run self ops (fresh left)).1 = some true ∧ ok = true then none else (run self ops (fresh left)).2.file := by
  have hi := Ok.run self left ops
  generalize run self ops (fresh left) = r at hi
  obtain ⟨c, s⟩ := r
  unfold exit
  cases hp : s.path with
  | false =>
    rw [exit_idle ok self _ s hp, if_neg]
    rintro ⟨h, -⟩
    have := hi.path.2 h
    rw [hp] at this; cases this
  | true =>
    obtain ⟨h1, h2⟩ := hi.pid hp
    have hc : c = some true := hi.path.1 hp
    subst hc
    obtain ⟨n, hn⟩ : ∃ n, s.hooks = n + 1 := ⟨s.hooks - 1, by have : 0 < s.hooks := h2; omega⟩
    simp only [hn]
    unfold exit.go
    have : s.pid = self := h1
    rw [exit_idle]
    · cases ok <;> simp [cleanup, unlink, hp, this]
    · simp [cleanup, hp, this]

/-- **C90 (child).** A process with another number that inherits the variables and the handlers (by `fork`) does not touch
the file when it ends. -/
theorem C90_child (self child : Nat) (left : Option Bytes) (ops : List Op) (ok : Bool) (h : child ≠ self) :
    (exit ok child (run self ops (fresh left)).2).file = (run self ops (fresh left)).2.file := by
  have hi := Ok.run self left ops
  generalize run self ops (fresh left) = r at hi
  obtain ⟨c, s⟩ := r
  have hc : cleanup ok child s = s := by
    unfold cleanup
    cases hp : s.path with
    | false => rfl
    | true =>
      have : s.pid = self := (hi.pid hp).1
      simp [this, Ne.symm h]
  unfold exit
  generalize s.hooks = n
  show (exit.go ok child n s).file = s.file
  induction n with
  | zero => rfl
  | succ n ih => unfold exit.go; rw [hc]; exact ih

/-! ### Where it goes wrong -/

/-- A second daemon puts its own number in the file.  When the first is told to read its configuration again it is
satisfied with the file, which holds the wrong number. -/
theorem C90_other_counterexample : ∃ (ops : List Op) (io : Io), (run 100 (ops ++ [.call io]) (fresh none)).1 = some true ∧
    (run 100 (ops ++ [.call io]) (fresh none)).2.file = some (numbered 200) :=
  ⟨[.call {}, .other (some (text 200))], {}, rfl, by rw [← text_numbered]; rfl⟩

/-- And when the first ends, it removes the file of the second, which still runs. -/
theorem C90_theft_counterexample : ∃ ops : List Op, (run 100 ops (fresh none)).2.file = some (numbered 200) ∧
    (exit true 100 (run 100 ops (fresh none)).2).file = none :=
  ⟨[.call {}, .other (some (text 200))], by rw [← text_numbered]; rfl, rfl⟩

/-- There is no memory for the name when someone has removed the file; the next call writes it again. -/
example : (run 100 [.call {}, .other none, .call { asprintf := false }] (fresh none)) =
    (some false, { file := none, path := false, pid := 100, hooks := 1 }) ∧
    (run 100 [.call {}, .other none, .call { asprintf := false }, .call {}] (fresh none)).2.file =
      some [0x31, 0x30, 0x30, 0x0A] := by
  decide +kernel

/-- The directory is missing at first; then the file is written, removed by someone, and written again. -/
example : (run 100 [.call { fopen := false }, .call {}, .other none, .call {}] (fresh none)).2.file = some [0x31, 0x30, 0x30, 0x0A] := by
  decide +kernel

example : Undisturbed [.call { fopen := false }, .call {}, .other none, .call {}] := by
  intro pre f post e _
  have hm : Op.other f ∈ [.call { fopen := false }, .call {}, .other none, .call {}] := by rw [e]; simp
  simpa using hm

end Mdns.Pid
