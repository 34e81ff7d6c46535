import Verif.Lemmas.History

/-!
# What a history of events consists of
-/

namespace Mdns

/-- What one step adds to the events: nothing that concerns queries, the registration or end of a query made by
the application, or a callback with the registrations it makes and, if it returns -1, the end of a query. -/
inductive Says (env : Env) (K : Bytes → Nat → Option Nat → Prop) (log : List Event) : List Event → Prop
  | quiet {evs : List Event} (h : ∀ e ∈ evs, e.quiet) : Says env K log evs
  | on {host : Bytes} {type cb : Nat} (h : K host type (some cb)) : Says env K log [.registered host type cb]
  | off {host : Bytes} {type : Nat} (h : K host type none) : Says env K log [.unregistered host type]
  | call {q cb : Nat} {rr : Answer} {post : List Event}
      (h : post = [] ∨ (env.answer (log ++ [.answer q cb rr])).stop = true ∧ ∃ n t, post = [.unregistered n t]) :
      Says env K log (.answer q cb rr :: (regEvents (env.answer (log ++ [.answer q cb rr])).reg ++ post))

/-- A history of events made of such steps. -/
inductive Gram (env : Env) (K : Bytes → Nat → Option Nat → Prop) : List Event → Prop
  | nil : Gram env K []
  | step {log evs : List Event} (h : Gram env K log) (s : Says env K log evs) : Gram env K (log ++ evs)

variable {env : Env} {K : Bytes → Nat → Option Nat → Prop}

theorem Gram.mono {K' : Bytes → Nat → Option Nat → Prop} (hk : ∀ a b c, K a b c → K' a b c) {log : List Event} (h : Gram env K log) :
    Gram env K' log := by
  induction h with
  | nil => exact .nil
  | step _ s ih =>
    refine .step ih ?_
    cases s with
    | quiet h => exact .quiet h
    | on h => exact .on (hk _ _ _ h)
    | off h => exact .off (hk _ _ _ h)
    | call h => exact .call h

theorem CStep.says {c c' : Core} (n : CStep env K c c') : ∃ evs, c'.log = c.log ++ evs ∧ Says env K c.log evs := by
  have none : ∀ {c'' : Core}, c''.log = c.log → ∃ evs, c''.log = c.log ++ evs ∧ Says env K c.log evs := fun e =>
    ⟨[], by rw [e, List.append_nil], .quiet fun _ m => by cases m⟩
  cases n with
  | frame hf =>
    obtain ⟨evs, e, hq⟩ := hf.log
    exact ⟨evs, e, .quiet hq⟩
  | ttls f _ _ => exact none rfl
  | @query _ host type a hi hk e =>
    cases a with
    | some cb =>
      obtain ⟨c1, e1, s1, l1⟩ := hi.queryOn host type cb
      rw [e] at e1
      cases e1
      exact ⟨_, l1, .on hk⟩
    | none =>
      obtain ⟨c1, e1, s1, l1, _⟩ := hi.queryOff host type
      rw [e] at e1
      cases e1
      rcases l1 with l1 | l1
      · exact ⟨_, l1, .off hk⟩
      · exact none (by rw [l1])
  | @expire _ i k en h0 hk hd e =>
    obtain ⟨_, hi⟩ := erased h0 i k
    have he : ∀ q, en.q = some q → ∃ x, c.qs q = some x ∧ x.name = en.rr.name ∧ typeFits x.type en.rr :=
      fun q hq => h0.cq i en q (List.mem_of_getElem? hk) hq
    unfold Core.qAnswer at e
    cases hq : en.q with
    | none =>
      rw [hq] at e
      cases e
      exact none rfl
    | some q =>
      rw [hq] at e
      obtain ⟨x, hx, hn, ht⟩ := he q hq
      obtain ⟨c1, evs, e1, s1, l1, hev⟩ := hi.callAnswer env hx hn ht
      dsimp only at e
      rw [e1] at e
      dsimp only at e
      have hev' : evs = regEvents (env.answer (c.log ++ [.answer q x.cb (c.seen en.rr)])).reg := hev
      have l1 : c1.log = c.log ++ .answer q x.cb (c.seen en.rr) :: evs := l1
      split at e
      · rename_i hs
        obtain ⟨x1, hx1, _⟩ := s1.qs_ex hx
        obtain ⟨c3, e4, s4, _, l4, _⟩ := s1.inv.qDone hx1
        rw [e] at e4
        cases e4
        refine ⟨.answer q x.cb (c.seen en.rr) :: (evs ++ [.unregistered x1.name x1.type]), by rw [l4, l1]; simp, ?_⟩
        rw [hev']
        exact .call (.inr ⟨hs, _, _, rfl⟩)
      · cases e
        refine ⟨.answer q x.cb (c.seen en.rr) :: (evs ++ []), by rw [l1]; simp, ?_⟩
        rw [hev']
        exact .call (.inl rfl)
  | @enter _ r src hi hr hn e =>
    rw [insert_eq hn] at e
    obtain ⟨o, h1, h2, h3⟩ := hi.qFind r.name r.type
    rw [h1] at e
    have h2' : ∀ q, ({ rr := Core.newEntry r src (c.expiry r), q := o } : Cached).q = some q →
        ∃ x, c.qs q = some x ∧ x.name = r.name ∧ x.type = r.type := h2
    have hi' := hi.withEntry (e := ⟨Core.newEntry r src (c.expiry r), o⟩) hr hn rfl h2'
    cases o with
    | none =>
      cases e
      exact none rfl
    | some q =>
      obtain ⟨x, hx, en, et⟩ := h2 q rfl
      dsimp only at e
      generalize hc0 : c.setChain (bucket r.name lprime) (⟨Core.newEntry r src (c.expiry r), some q⟩ ::
        c.cache (bucket r.name lprime)) = c0 at e hi'
      have hx' : c0.qs q = some x := by rw [← hc0]; exact hx
      have hlog : c0.log = c.log := by rw [← hc0]; rfl
      have ht : typeFits x.type (Core.newEntry r src (c.expiry r)) := .inl (et.trans (newEntry_type r src _).symm)
      obtain ⟨c1, evs, e1, s1, l1, hev⟩ := hi'.callAnswer env hx' (en.trans (newEntry_name r src (c.expiry r)).symm) ht
      rw [e1] at e
      dsimp only at e
      have hev' : evs = regEvents (env.answer (c0.log ++ [.answer q x.cb (c0.seen (Core.newEntry r src (c.expiry r)))])).reg := hev
      rw [← hlog]
      split at e
      · rename_i hs
        split at e
        · rename_i e' q' hh
          obtain ⟨x', hx2, _⟩ := s1.inv.cq (bucket r.name lprime) _ q' (List.mem_of_head? hh) rfl
          obtain ⟨c3, e4, s4, _, l4, _⟩ := s1.inv.qDone hx2
          rw [e] at e4
          cases e4
          refine ⟨.answer q x.cb (c0.seen (Core.newEntry r src (c.expiry r))) :: (evs ++ [.unregistered x'.name x'.type]),
            by rw [l4, l1]; simp, ?_⟩
          rw [hev']
          exact .call (.inr ⟨hs, _, _, rfl⟩)
        · cases e
      · cases e
        refine ⟨.answer q x.cb (c0.seen (Core.newEntry r src (c.expiry r))) :: (evs ++ []), by rw [l1]; simp, ?_⟩
        rw [hev']
        exact .call (.inl rfl)
  | reset _ _ => exact none rfl
  | asked _ _ => exact none rfl

theorem CSteps.gram {c c' : Core} (n : CSteps env K c c') : Gram env K c.log → Gram env K c'.log := by
  induction n with
  | refl => exact id
  | step s _ ih =>
    intro h
    obtain ⟨evs, e, hs⟩ := s.says
    exact ih (by rw [e]; exact .step h hs)

theorem CSteps.mono {K' : Bytes → Nat → Option Nat → Prop} (hk : ∀ a b c, K a b c → K' a b c) {c c' : Core}
    (n : CSteps env K c c') : CSteps env K' c c' := by
  induction n with
  | refl => exact .refl _
  | step s _ ih =>
    refine .step ?_ ih
    cases s with
    | frame h => exact .frame h
    | ttls f h hf => exact .ttls f h hf
    | query h k e => exact .query h (hk _ _ _ k) e
    | expire h hk hd e => exact .expire h hk hd e
    | enter h hr hn e => exact .enter h hr hn e
    | reset h hx => exact .reset h hx
    | asked h hx => exact .asked h hx

/-- The queries an application made. -/
def made (h : List Call) (host : Bytes) (type : Nat) (a : Option Nat) : Prop := ∃ out, (Op.query host type a, out) ∈ h

theorem Hist.gram {h : List Call} {d : D Ptrs} (n : Hist env h d) : Gram env (made h) d.c.log := by
  refine n.induct (P := fun h c _ => Gram env (made h) c.log) (fun _ _ _ => .nil) ?_
  intro h c l o a c' l' ih hi _ _ hd _
  refine CSteps.gram (c := c) (c' := c') ((hd.steps hi).mono ?_) (ih.mono ?_)
  · rintro x y z rfl
    exact ⟨a, by simp⟩
  · rintro x y z ⟨out, m⟩
    exact ⟨out, List.mem_append_left _ m⟩

/-- What a callback asks for follows it. -/
theorem Gram.regs {log : List Event} (h : Gram env K log) : ∀ pre q cb rr post, log = pre ++ .answer q cb rr :: post →
    ∃ post', post = regEvents (env.answer (pre ++ [.answer q cb rr])).reg ++ post' := by
  induction h with
  | nil =>
    intro pre q cb rr post e
    have := congrArg List.length e
    simp at this
  | @step log evs h s ih =>
    intro pre q cb rr post e
    rcases split_append e with ⟨k, h1, h2⟩ | ⟨k, h1, h2⟩
    · obtain ⟨p, hp⟩ := ih pre q cb rr k h1
      exact ⟨p ++ evs, by rw [h2, hp, List.append_assoc]⟩
    · have no : ∀ l : List Event, answersOf l = [] → l ≠ k ++ .answer q cb rr :: post := by
        rintro l hl rfl
        rw [answersOf_append] at hl
        have : answersOf k ++ rr :: answersOf post = [] := hl
        simp at this
      cases s with
      | quiet hq =>
        refine absurd h2 (no _ ?_)
        unfold answersOf
        rw [List.filterMap_eq_nil_iff]
        intro e m
        have := hq e m
        cases e <;> first | rfl | cases this
      | on _ => exact absurd h2 (no _ rfl)
      | off _ => exact absurd h2 (no _ rfl)
      | @call q' cb' rr' post' hp =>
        cases k with
        | nil =>
          simp only [List.nil_append, List.cons.injEq, Event.answer.injEq] at h2
          obtain ⟨⟨rfl, rfl, rfl⟩, rfl⟩ := h2
          rw [List.append_nil] at h1
          subst h1
          exact ⟨_, rfl⟩
        | cons x k =>
          simp only [List.cons_append, List.cons.injEq] at h2
          refine absurd h2.2 (fun h3 => ?_)
          have h4 := congrArg answersOf h3
          rw [answersOf_append, answersOf_append, answersOf_reg] at h4
          have h5 : answersOf (Event.answer q cb rr :: post) = rr :: answersOf post := rfl
          rw [h5] at h4
          rcases hp with rfl | ⟨_, n, t, rfl⟩
          · have := congrArg List.length h4
            simp [answersOf] at this
          · have := congrArg List.length h4
            simp [answersOf] at this

/-- A query is registered by the application or by a callback. -/
theorem Gram.source {log : List Event} (h : Gram env K log) : ∀ host type cb, Event.registered host type cb ∈ log →
    K host type (some cb) ∨ ∃ pre q cb' rr post, log = pre ++ .answer q cb' rr :: post ∧
      (host, type, cb) ∈ (env.answer (pre ++ [.answer q cb' rr])).reg := by
  induction h with
  | nil => intro _ _ _ m; cases m
  | @step log evs h s ih =>
    intro host type cb m
    rcases List.mem_append.mp m with m | m
    · rcases ih host type cb m with h | ⟨pre, q, cb', rr, post, e, h⟩
      · exact .inl h
      · exact .inr ⟨pre, q, cb', rr, post ++ evs, by rw [e]; simp, h⟩
    · cases s with
      | quiet hq => exact absurd (hq _ m) (by simp [Event.quiet])
      | on hk =>
        cases List.mem_singleton.mp m
        exact .inl hk
      | off _ => simp at m
      | @call q' cb' rr' post' hp =>
        right
        refine ⟨log, q', cb', rr', _, rfl, ?_⟩
        rcases List.mem_cons.mp m with m | m
        · cases m
        · rcases List.mem_append.mp m with m | m
          · obtain ⟨⟨a, b, c⟩, ma, e⟩ := List.mem_map.mp m
            cases e
            exact ma
          · rcases hp with rfl | ⟨_, n, t, rfl⟩
            · cases m
            · simp at m

/-- A query ends by the application or because a callback returned -1. -/
theorem Gram.ends {log : List Event} (h : Gram env K log) : ∀ host type, Event.unregistered host type ∈ log →
    K host type none ∨ ∃ pre q cb' rr post, log = pre ++ .answer q cb' rr :: post ∧
      (env.answer (pre ++ [.answer q cb' rr])).stop = true := by
  induction h with
  | nil => intro _ _ m; cases m
  | @step log evs h s ih =>
    intro host type m
    rcases List.mem_append.mp m with m | m
    · rcases ih host type m with h | ⟨pre, q, cb', rr, post, e, h⟩
      · exact .inl h
      · exact .inr ⟨pre, q, cb', rr, post ++ evs, by rw [e]; simp, h⟩
    · cases s with
      | quiet hq => exact absurd (hq _ m) (by simp [Event.quiet])
      | on hk => simp at m
      | off hk =>
        cases List.mem_singleton.mp m
        exact .inl hk
      | @call q' cb' rr' post' hp =>
        right
        refine ⟨log, q', cb', rr', _, rfl, ?_⟩
        rcases List.mem_cons.mp m with m | m
        · cases m
        · rcases List.mem_append.mp m with m | m
          · obtain ⟨⟨a, b, c⟩, ma, e⟩ := List.mem_map.mp m
            cases e
          · rcases hp with rfl | ⟨hs, n, t, rfl⟩
            · cases m
            · exact hs

end Mdns
