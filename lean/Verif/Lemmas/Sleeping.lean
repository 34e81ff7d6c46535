import Verif.Lemmas.Clock

/-!
# What is due, and when
-/

namespace Mdns

/-- A time in microseconds. -/
def TV.us (t : TV) : Int := (t.sec : Int) * 1000000 + t.usec

theorem tvdiff_us (a b : TV) : tvdiff a b = b.us - a.us := by
  unfold tvdiff TV.us
  omega

theorem normTv_us : ∀ (n : Nat) (t : TV), (normTv n t).us = t.us
  | 0, _ => rfl
  | n + 1, t => by
    unfold normTv
    split
    · rw [normTv_us]
      unfold TV.us
      dsimp only
      omega
    · rfl

theorem normTv_usec : ∀ (n : Nat) (t : TV), t.usec ≤ (n + 1) * 1000000 → (normTv n t).usec ≤ 1000000
  | 0, t, h => by unfold normTv; omega
  | n + 1, t, h => by
    unfold normTv
    split
    · refine normTv_usec n _ ?_
      dsimp only
      omega
    · omega

theorem rounded_us (t : TV) : (rounded t).us = t.us := normTv_us _ _

theorem rounded_usec (t : TV) : (rounded t).usec ≤ 1000000 := by
  refine normTv_usec _ _ ?_
  omega

/-- Nothing is due: nothing is sent. -/
theorem OutMsg.nothing {env : Env} {c : Core} {l : Lists} {ret : Nat} {m : Out} {to : Addr} {c' : Core} {l' : Lists}
    (n : OutMsg env c l ret m to c' l') (hu : c.uanswers = []) (hn : l.q .now = [])
    (h1 : l.q .pause ≠ [] → c.now.us < c.pause.us) (h2 : l.q .probing ≠ [] → c.now.us < c.probe.us)
    (h3 : l.q .publish ≠ [] → c.now.us < c.publish.us ∨ l.q .probing ≠ [])
    (h4 : c.checkqlist ≠ 0 → c.now.sec < c.checkqlist) : ret = 0 ∧ m.ops = [] := by
  have k1 : ∀ {s1}, ROut .now ⟨c, l, {}, [], 0⟩ s1 → s1 = ⟨c, l, {}, [], 0⟩ := by
    intro s1 n
    generalize hs : (⟨c, l, {}, [], 0⟩ : OSt) = s at n
    cases n with
    | empty => rfl
    | full => rfl
    | skip _ hq => subst hs; rw [hn] at hq; cases hq
    | send _ hq => subst hs; rw [hn] at hq; cases hq
    | bye _ hq => subst hs; rw [hn] at hq; cases hq
  have k2 : ∀ {s2}, PubOpt ⟨c, l, {}, [], 0⟩ s2 → s2 = ⟨c, l, {}, [], 0⟩ := by
    intro s2 n
    generalize hs : (⟨c, l, {}, [], 0⟩ : OSt) = s at n
    cases n with
    | no => rfl
    | yes p1 p2 p3 =>
      subst hs
      rcases h3 p2 with h | h
      · rw [tvdiff_us] at p3
        dsimp only at p3
        omega
      · exact absurd p1 h
  have k3 : ∀ {s2}, PauseOpt ⟨c, l, {}, [], 0⟩ s2 → s2 = ⟨c, l, {}, [], 0⟩ := by
    intro s2 n
    generalize hs : (⟨c, l, {}, [], 0⟩ : OSt) = s at n
    cases n with
    | no => rfl
    | yes p2 p3 =>
      subst hs
      have := h1 p2
      rw [tvdiff_us] at p3
      dsimp only at p3
      omega
  have k4 : ∀ {s : OSt} {s2}, s.c = c → s.l = l → ProbeOpt s s2 → s2 = s := by
    intro s s2 e1 e2 n
    cases n with
    | no => rfl
    | yes p2 p3 =>
      rw [e2] at p2
      rw [e1] at p3
      have := h2 p2
      rw [tvdiff_us] at p3
      omega
  cases n with
  | unicast h => rw [hu] at h; cases h
  | shutdown _ n1 n2 =>
    cases k1 n1
    cases k2 n2
    exact ⟨rfl, rfl⟩
  | normal _ n1 n2 _ n3 =>
    cases k1 n1
    cases k2 n2
    cases n3 with
    | answers np _ hr => cases k3 np; exact absurd rfl hr
    | probes np _ hr nb hr2 =>
      cases k3 np
      cases k4 rfl rfl nb
      exact absurd rfl hr2
    | questions np na hr nb hr2 nq ng =>
      cases k3 np
      cases k4 rfl rfl nb
      have := na.none
      subst this
      generalize hb : ({({} : Out) with qr := false, aa := false} : Out) = b at nq
      cases nq with
      | no => subst hb; exact ⟨rfl, rfl⟩
      | yes q1 q2 =>
        have := h4 q1
        have q2 : c.now.sec ≥ c.checkqlist := q2
        omega

end Mdns
