import Verif.Props.Spinning

/-!
# C31: a record that fits in no packet silences the others
-/

namespace Mdns

/-- A record that fits in no packet is the first to be announced, and nothing else is to be sent. -/
structure Blocked (r : Nat) (rest : List Nat) (x : Rec) (c : Core) (l : Lists) : Prop where
  up : c.shutdown = false
  uans : c.uanswers = []
  first : l.q .publish = r :: rest
  is : c.recs r = some x
  large : ¬ ({} : Out).len + rrLen x.rr < c.frame
  only : ∀ w, w ≠ .publish → l.q w = []

/-- What matters of the core. -/
theorem Blocked.congr {r : Nat} {rest : List Nat} {x : Rec} {c c' : Core} {l : Lists} (b : Blocked r rest x c l)
    (h1 : c'.shutdown = c.shutdown) (h2 : c'.uanswers = c.uanswers) (h3 : c'.recs = c.recs) (h4 : c'.frame = c.frame) :
    Blocked r rest x c' l :=
  ⟨h1.trans b.up, h2.trans b.uans, b.first, by rw [h3]; exact b.is, by rw [h4]; exact b.large, b.only⟩

theorem OutMsg.blocked {r : Nat} {rest : List Nat} {x : Rec} {env : Env} {c c' : Core} {l l' : Lists} {ret : Nat}
    {m : Out} {to : Addr} (n : OutMsg env c l ret m to c' l') (h : Blocked r rest x c l) :
    m.tags = [] ∧ c'.recs = c.recs ∧ Blocked r rest x c' l' := by
  have k1 : ∀ {s1}, ROut .now ⟨c, l, {}, [], 0⟩ s1 → s1 = ⟨c, l, {}, [], 0⟩ := by
    intro s1 n
    obtain ⟨p, q, f⟩ := n.flow
    have := f.q
    have h0 : (⟨c, l, {}, [], 0⟩ : OSt).l.q .now = [] := h.only .now (by decide)
    rw [h0] at this
    exact f.idle (List.append_eq_nil_iff.mp this.symm).1
  have k2 : ∀ {s2}, PubOpt ⟨c, l, {}, [], 0⟩ s2 → ∃ t, s2 = ⟨{ c with publish := t }, l, {}, [], 0⟩ := by
    intro s2 n
    cases n with
    | no => exact ⟨c.publish, rfl⟩
    | @yes t _ _ _ n =>
      have : t = ⟨c, l, {}, [], 0⟩ := by
        generalize hs : (⟨c, l, {}, [], 0⟩ : OSt) = s at n
        have hq : s.l.q .publish = r :: rest := by rw [← hs]; exact h.first
        rw [hq] at n
        cases n with
        | full => rfl
        | keep _ _ hx hf => subst hs; rw [h.is] at hx; cases hx; exact absurd hf h.large
        | last _ _ hx hf => subst hs; rw [h.is] at hx; cases hx; exact absurd hf h.large
        | bye _ _ hx hf => subst hs; rw [h.is] at hx; cases hx; exact absurd hf h.large
      subst this
      refine ⟨⟨c.now.sec + 2, c.now.usec⟩, ?_⟩
      simp only
      rw [if_pos (by rw [h.first]; exact List.cons_ne_nil _ _)]
  cases n with
  | unicast hu => rw [h.uans] at hu; cases hu
  | shutdown _ _ _ hs => rw [h.up] at hs; cases hs
  | normal hu n1 n2 _ n3 =>
    cases k1 n1
    obtain ⟨t, rfl⟩ := k2 n2
    have hb : Blocked r rest x { c with publish := t } l := h.congr rfl rfl rfl rfl
    have k3 : ∀ {s3}, PauseOpt ⟨{ c with publish := t }, l, {}, [], 0⟩ s3 → s3 = ⟨{ c with publish := t }, l, {}, [], 0⟩ := by
      intro s3 n
      cases n with
      | no => rfl
      | yes p1 => exact absurd (h.only .pause (by decide)) p1
    have k4 : ∀ {m s4}, ProbeOpt ⟨{ c with publish := t }, l, m, [], 0⟩ s4 → s4 = ⟨{ c with publish := t }, l, m, [], 0⟩ := by
      intro m s4 n
      cases n with
      | no => rfl
      | yes p1 => exact absurd (h.only .probing (by decide)) p1
    cases n3 with
    | answers np _ hr => cases k3 np; exact absurd rfl hr
    | probes np _ _ nb hr => cases k3 np; cases k4 nb; exact absurd rfl hr
    | questions np na _ nb _ nq ng =>
      cases k3 np
      cases k4 nb
      have hm := na.none
      subst hm
      have e := nq.rest
      have e1 := (congrArg Core.recs e : (Core.rest _).recs = (Core.rest _).recs)
      have e2 := (congrArg Core.shutdown e : (Core.rest _).shutdown = (Core.rest _).shutdown)
      have e3 := (congrArg Core.uanswers e : (Core.rest _).uanswers = (Core.rest _).uanswers)
      have e4 := (congrArg Core.frame e : (Core.rest _).frame = (Core.rest _).frame)
      exact ⟨nq.tags, ng.recs.trans e1, hb.congr ((Core.conf_eq ng.conf).2.2.2.1.trans e2) (ng.rest.1.trans e3)
        (ng.recs.trans e1) ((Core.conf_eq ng.conf).2.1.trans e4)⟩

/-- The calls of a program that runs the daemon while nothing is received. -/
def Op.runs : Op → Bool
  | .send _ => true
  | .sleep _ => true
  | .stepEnd => true
  | _ => false

theorem Calls.blocked {env : Env} {d d' : D Ptrs} {h : List Call} {r : Nat} {rest : List Nat} {x : Rec} (n : Calls env d h d')
    (hr : Reach env d) (b : Blocked r rest x d.c d.lists) (ho : ∀ k ∈ h, k.1.runs) :
    (∀ k ∈ h, k.2.tags = []) ∧ d'.c.recs = d.c.recs ∧ Blocked r rest x d'.c d'.lists := by
  induction n with
  | nil => exact ⟨fun _ m => (by cases m), rfl, b⟩
  | @snoc h d1 d' o a n hs e ih =>
    obtain ⟨i1, i2, i3⟩ := ih fun k m => ho k (List.mem_append_left _ m)
    have hd := (n.reach hr).did hs e
    have ho := ho (o, a) (by simp)
    have key : a.tags = [] ∧ d'.c.recs = d1.c.recs ∧ Blocked r rest x d'.c d'.lists := by
      generalize d'.c = c', d'.lists = l' at hd
      cases hd <;> first | (cases ho; done) | skip
      case send n => exact n.blocked (i3.congr rfl rfl rfl rfl)
      case sleep n =>
        refine ⟨rfl, ?_⟩
        cases n with
        | publish => exact ⟨rfl, i3.congr rfl rfl rfl rfl⟩
        | busy h => rcases h with h | h
                    · exact absurd i3.uans h
                    · exact absurd (i3.only .now (by decide)) h
        | pause _ h => exact absurd (i3.only .pause (by decide)) h
        | probing _ _ h => exact absurd (i3.only .probing (by decide)) h
        | query _ _ _ h | gc _ _ _ h | idle _ _ _ h => rw [i3.first] at h; cases h
      case stepEnd => exact ⟨rfl, rfl, i3.congr rfl rfl rfl rfl⟩
    refine ⟨?_, key.2.1.trans i2, key.2.2⟩
    intro k m
    rcases List.mem_append.mp m with m | m
    · exact i1 k m
    · rw [List.mem_singleton.mp m]; exact key.1

namespace Sample

/-- An address, and a record with more data than a packet of 1000 bytes has room for. -/
def silenced : List Op := [.shared (nm 97) 1 120, .setIp 0 ipA, .shared (nm 98) 16 120, .setRaw 1 (List.replicate 1000 1)]

/-- As `src/mdnsd.c` makes its contexts. -/
def thousand : D Ptrs := newD 1 1000 (at_ 100)

end Sample

open Sample in
/-- C31: a record that fits in no packet keeps the others from being announced, however long the program runs. -/
theorem C31_silenced_counterexample : ∃ d, Reach quiet d ∧ d.c.shutdown = false ∧ 0 ∈ d.q.walk .publish ∧
    (∃ x, d.c.recs 0 = some x ∧ x.tries = 0 ∧ ({} : Out).len + rrLen x.rr < d.c.frame) ∧
    ∀ h d', Calls quiet d h d' → (∀ k ∈ h, k.1.runs) → 0 ∈ d'.q.walk .publish ∧ ∀ s r, shown s r h = 0 := by
  have hr : Reach quiet (trace quiet silenced thousand).2 := reach_of (by decide +kernel)
  obtain ⟨x, e, k⟩ := any_some (show ((trace quiet silenced thousand).2.c.recs 1).any
    (fun x => decide (¬ ({} : Out).len + rrLen x.rr < (trace quiet silenced thousand).2.c.frame)) = true by decide +kernel)
  obtain ⟨y, e', k'⟩ := any_some (show ((trace quiet silenced thousand).2.c.recs 0).any
    (fun x => decide (x.tries = 0 ∧ ({} : Out).len + rrLen x.rr < (trace quiet silenced thousand).2.c.frame)) = true by decide +kernel)
  have b : Blocked 1 [0] x (trace quiet silenced thousand).2.c (trace quiet silenced thousand).2.lists :=
    ⟨by decide +kernel, by decide +kernel, by decide +kernel, e, of_decide_eq_true k, fun w hw => by
      cases w with
      | publish => exact absurd rfl hw
      | probing | now | pause => decide +kernel⟩
  refine ⟨_, hr, by decide +kernel, by decide +kernel, ⟨y, e', of_decide_eq_true k'⟩, ?_⟩
  intro h d' n ho
  obtain ⟨h1, _, h2⟩ := n.blocked hr b ho
  refine ⟨?_, fun s r => ?_⟩
  · have := h2.first
    show 0 ∈ d'.lists.q .publish
    rw [this]
    simp
  · unfold shown
    rw [List.length_eq_zero_iff, List.filter_eq_nil_iff]
    intro k m
    simp [Call.shows, h1 k m]

end Mdns
