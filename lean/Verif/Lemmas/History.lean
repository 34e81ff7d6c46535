import Verif.Lemmas.Packet

/-!
# Induction over histories
-/

namespace Mdns

/-- The queues of a daemon. -/
def D.lists (d : D Ptrs) : Lists := ⟨d.q.walk, fun r => (d.q.link r).isSome, d.q.size⟩

theorem Rep.lists {d : D Ptrs} {l : Lists} (h : Rep d l) : l = d.lists := by
  obtain ⟨q, live, size⟩ := l
  unfold D.lists
  rw [h.rq.walk, h.rq.size]
  congr 1
  funext r
  exact (h.rq.live r).symm

theorem Hist.reach {env : Env} {h : List Call} {d : D Ptrs} (n : Hist env h d) : Reach env d := by
  induction n with
  | new => exact .new ..
  | call _ hs e ih => exact .step ih hs e

theorem Reach.inv {env : Env} {d : D Ptrs} (h : Reach env d) : DInv d.c d.lists := by
  obtain ⟨l, hr⟩ := h.rep
  exact hr.lists ▸ hr.inv

theorem Reach.did {env : Env} {d d' : D Ptrs} {o : Op} {a : OpOut} (h : Reach env d) (hs : OpSafe env d.c d.q.walk o)
    (e : Mdns.step env o d = .ok (a, d')) : Did env o d.c d.lists a d'.c d'.lists := by
  obtain ⟨l, hr⟩ := h.rep
  obtain ⟨a', d'', l', e', n, hr'⟩ := hr.step _ hs
  rw [e] at e'
  cases e'
  exact hr.lists ▸ hr'.lists ▸ n

/-- Calls after each other. -/
inductive Calls (env : Env) (d : D Ptrs) : List Call → D Ptrs → Prop
  | nil : Calls env d [] d
  | snoc {h : List Call} {d1 d' : D Ptrs} {o : Op} {a : OpOut} (n : Calls env d h d1)
      (hs : OpSafe env d1.c d1.q.walk o) (e : Mdns.step env o d1 = .ok (a, d')) : Calls env d (h ++ [(o, a)]) d'

theorem Hist.calls {env : Env} {h h' : List Call} {d d' : D Ptrs} (n : Hist env h d) (n' : Calls env d h' d') :
    Hist env (h ++ h') d' := by
  induction n' with
  | nil => simpa using n
  | snoc _ hs e ih => rw [← List.append_assoc]; exact .call ih hs e

theorem Hist.split {env : Env} {pre post : List Call} {d : D Ptrs} (n : Hist env (pre ++ post) d) :
    ∃ d1, Hist env pre d1 ∧ Calls env d1 post d := by
  generalize e : pre ++ post = h at n
  induction n generalizing post with
  | new =>
    obtain ⟨rfl, rfl⟩ := List.append_eq_nil_iff.mp e
    exact ⟨_, .new .., .nil⟩
  | @call h1 d d' o a n hs e1 ih =>
    rcases List.eq_nil_or_concat post with rfl | ⟨post', k, rfl⟩
    · rw [List.append_nil] at e
      subst e
      exact ⟨_, .call n hs e1, .nil⟩
    · rw [List.concat_eq_append, ← List.append_assoc] at e
      obtain ⟨e2, e3⟩ := List.append_inj' e rfl
      subst e2
      cases e3
      obtain ⟨d1, n1, n2⟩ := ih rfl
      exact ⟨d1, n1, by rw [List.concat_eq_append]; exact .snoc n2 hs e1⟩

/-- A history with a call in it. -/
theorem Hist.at {env : Env} {pre post : List Call} {o : Op} {a : OpOut} {d : D Ptrs}
    (n : Hist env (pre ++ (o, a) :: post) d) :
    ∃ d1 d2, Hist env pre d1 ∧ OpSafe env d1.c d1.q.walk o ∧ Mdns.step env o d1 = .ok (a, d2) ∧
      Hist env (pre ++ [(o, a)]) d2 ∧ Calls env d2 post d := by
  have e : pre ++ (o, a) :: post = (pre ++ [(o, a)]) ++ post := by simp
  rw [e] at n
  obtain ⟨d2, n1, n2⟩ := n.split
  generalize e2 : pre ++ [(o, a)] = h at n1
  cases n1 with
  | new => simp at e2
  | call n1 hs e1 =>
    obtain ⟨rfl, e3⟩ := List.append_inj' e2 rfl
    cases e3
    exact ⟨_, _, n1, hs, e1, .call n1 hs e1, n2⟩

theorem Calls.reach {env : Env} {h : List Call} {d d' : D Ptrs} (n : Calls env d h d') (hr : Reach env d) : Reach env d' := by
  induction n with
  | nil => exact hr
  | snoc _ hs e ih => exact .step ih hs e

theorem Reach.uni {env : Env} {d : D Ptrs} (h : Reach env d) : ∀ u ∈ d.c.uanswers, u.to.port ≠ 5353 := by
  induction h with
  | new => intro u m; cases m
  | step h hs e ih =>
    intro u m
    rcases (h.did hs e).uans u m with m | ⟨_, _, _, _, e1, _, e2⟩
    · exact ih u m
    · rw [e1]
      exact e2

/-- What is kept by every call is kept by calls after each other. -/
theorem Calls.induct {env : Env} {P : List Call → Core → Lists → Prop} {d d' : D Ptrs} {h : List Call}
    (n : Calls env d h d') (hr : Reach env d) (h0 : P [] d.c d.lists)
    (hs : ∀ {h1 c l o a c' l'}, (∃ h2, h = h1 ++ (o, a) :: h2) → P h1 c l → DInv c l →
      (∀ u ∈ c.uanswers, u.to.port ≠ 5353) → OpSafe env c l.q o → Did env o c l a c' l' → DInv c' l' →
      P (h1 ++ [(o, a)]) c' l') : P h d'.c d'.lists := by
  suffices H : ∀ h1 d1, Calls env d h1 d1 → (∃ h2, h = h1 ++ h2) → P h1 d1.c d1.lists from H h d' n ⟨[], by simp⟩
  intro h1 d1 n1
  induction n1 with
  | nil => exact fun _ => h0
  | snoc n1 hso e ih =>
    rintro ⟨h2, rfl⟩
    have r1 := n1.reach hr
    exact hs ⟨h2, by simp⟩ (ih ⟨_, List.append_assoc ..⟩) r1.inv r1.uni hso (r1.did hso e) (r1.step hso e).inv

/-- What holds for a new daemon and is kept by every call holds after every history. -/
theorem Hist.induct {env : Env} {P : List Call → Core → Lists → Prop} {d : D Ptrs} {h : List Call}
    (n : Hist env h d) (h0 : ∀ cls frame now, P [] (newD cls frame now).c (newD cls frame now).lists)
    (hs : ∀ {h c l o a c' l'}, P h c l → DInv c l → (∀ u ∈ c.uanswers, u.to.port ≠ 5353) → OpSafe env c l.q o →
      Did env o c l a c' l' → DInv c' l' → P (h ++ [(o, a)]) c' l') : P h d.c d.lists := by
  induction n with
  | new => exact h0 ..
  | call n hso e ih =>
    have r1 := n.reach
    exact hs ih r1.inv r1.uni hso (r1.did hso e) (r1.step hso e).inv

end Mdns
