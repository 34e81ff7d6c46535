import Verif.Lemmas.Origin
import Verif.Props.Questions
import Verif.Props.Origin

/-!
# When a query that was asked three times is asked again
-/

namespace Mdns

theorem foldl_least {α : Type} (f : α → Nat) : ∀ (l : List α) (b : Nat), (∀ e ∈ l, f e ≠ 0) →
    (b ≠ 0 → l.foldl (fun nt e => if nt = 0 ∨ f e < nt then f e else nt) b ≠ 0 ∧
      l.foldl (fun nt e => if nt = 0 ∨ f e < nt then f e else nt) b ≤ b) ∧
    ∀ e ∈ l, l.foldl (fun nt e => if nt = 0 ∨ f e < nt then f e else nt) b ≠ 0 ∧
      l.foldl (fun nt e => if nt = 0 ∨ f e < nt then f e else nt) b ≤ f e
  | [], b, _ => ⟨fun h => ⟨h, Nat.le_refl _⟩, fun e m => by cases m⟩
  | e :: l, b, hf => by
    rw [List.foldl_cons]
    have h0 := hf e (by simp)
    obtain ⟨h1, h2⟩ := foldl_least f l (if b = 0 ∨ f e < b then f e else b) fun e m => hf e (by simp [m])
    have hne : (if b = 0 ∨ f e < b then f e else b) ≠ 0 := by
      split <;> omega
    obtain ⟨h3, h4⟩ := h1 hne
    refine ⟨fun hb => ⟨h3, Nat.le_trans h4 ?_⟩, fun x mx => ?_⟩
    · split <;> omega
    · rcases List.mem_cons.mp mx with rfl | mx
      · refine ⟨h3, Nat.le_trans h4 ?_⟩
        split <;> omega
      · exact h2 x mx

/-- The time to ask again is early enough for every answer. -/
theorem dueTime_least {c : Core} {x : Query} (h8 : ∀ a ∈ c.rrs (bucket x.name lprime), a.is x.name x.type = true → 8 ≤ a.ttl) :
    ∀ a ∈ c.rrs (bucket x.name lprime), a.is x.name x.type = true → c.dueTime x ≠ 0 ∧ c.dueTime x ≤ a.ttl - 7 := by
  intro a ma ha
  obtain ⟨e, me, rfl⟩ := List.mem_map.mp ma
  have h7 : ∀ t, 8 ≤ t → sub7 t = t - 7 := fun t h => by unfold sub7; rw [if_pos (by omega)]
  unfold Core.dueTime
  have := (foldl_least (fun e : Cached => sub7 e.rr.ttl) ((c.chain x.name).filter fun e => e.rr.is x.name x.type) 0 (by
    intro e me
    obtain ⟨me, hi⟩ := List.mem_filter.mp me
    have h8 := h8 e.rr (List.mem_map_of_mem me) hi
    show sub7 e.rr.ttl ≠ 0
    rw [h7 _ h8]
    omega)).2 e (List.mem_filter.mpr ⟨me, ha⟩)
  rw [h7 _ (h8 e.rr ma ha)] at this
  exact this

/-- What becomes of a query that was asked three times. -/
theorem Upd.again_least {env : Env} {suf : List Nat} {s t : QSt} (n : Upd env suf s t) (hd : suf.Nodup) {q : Nat} {x y : Query}
    (hq : q ∈ suf) (hx : s.c.qs q = some x) (h3 : x.tries = 3) (hy : t.c.qs q = some y) (h0 : y.tries = 0)
    (h8 : ∀ a ∈ s.c.rrs (bucket x.name lprime), a.is x.name x.type = true → 8 ≤ a.ttl) :
    ∀ a ∈ t.c.rrs (bucket x.name lprime), a.is x.name x.type = true → y.nexttry ≠ 0 ∧ y.nexttry ≤ a.ttl - 7 := by
  induction n generalizing x with
  | done => cases hq
  | @idle p _ s _ z _ hz hi n ih =>
    rcases List.mem_cons.mp hq with e | m
    · subst e
      obtain ⟨cb, h⟩ := n.other (List.nodup_cons.mp hd).1 hx
      rw [hy] at h
      cases h
      rw [show x.tries = 0 from h0] at h3
      cases h3
    · exact ih (List.nodup_cons.mp hd).2 m hx h3 hy h8
  | @again p _ s _ z c1 _ cb h hz hi h3' he hc hn hx1 n ih =>
    rcases List.mem_cons.mp hq with e | m
    · subst e
      rw [hx] at hz
      cases hz
      obtain ⟨cb', h1⟩ := n.other (x := { z with cb := cb, nexttry := c1.dueTime { z with cb := cb }, tries := 0 })
        (List.nodup_cons.mp hd).1 (by
          show upd c1.qs q _ q = _
          rw [upd_same])
      rw [hy] at h1
      cases h1
      intro a ma ha
      exact dueTime_least (c := c1) (x := { z with cb := cb }) (fun a ma ha => h8 a (h.cExpire_sub he _ a ma) ha) a (n.sub _ a ma) ha
    · have hp : q ≠ p := fun e => (List.nodup_cons.mp hd).1 (e ▸ m)
      rcases hc.kept q x hx with ⟨cb', h1⟩ | ⟨_, m⟩
      · exact ih (List.nodup_cons.mp hd).2 m (x := { x with cb := cb' }) (by
          show upd c1.qs p _ q = _
          rw [upd_other _ _ _ _ hp, h1]) h3 hy (fun a ma ha => h8 a (h.cExpire_sub he _ a ma) ha)
      · exact absurd m (hn _ _)
  | @ask p _ s _ z h hz hi h3' n ih =>
    rcases List.mem_cons.mp hq with e | m
    · subst e
      rw [hx] at hz
      cases hz
      exact absurd h3 h3'
    · have hp : q ≠ p := fun e => (List.nodup_cons.mp hd).1 (e ▸ m)
      exact ih (List.nodup_cons.mp hd).2 m (x := x) (by
        show upd s.c.qs p _ q = _
        rw [upd_other _ _ _ _ hp, hx]) h3 hy h8

theorem Asking.again_least {env : Env} {c c' : Core} {ret : Nat} {m : Out} (n : Asking env c ret m c') {q : Nat} {x y : Query}
    (hx : c.qs q = some x) (h3 : x.tries = 3) (hy : c'.qs q = some y) (h0 : y.tries = 0)
    (h8 : ∀ a ∈ c.rrs (bucket x.name lprime), a.is x.name x.type = true → 8 ≤ a.ttl) :
    ∀ a ∈ c'.rrs (bucket x.name lprime), a.is x.name x.type = true → y.nexttry ≠ 0 ∧ y.nexttry ≤ a.ttl - 7 := by
  cases n with
  | other e h hr =>
    rw [(Still.recfree e).qs, hx] at hy
    cases hy
    omega
  | @asking c2 c3 e nq ng =>
    have st := Still.recfree e
    have hx2 : c2.qs q = some x := by rw [st.qs, hx]
    obtain ⟨ex, ev2, tg, sub⟩ := ng.tends
    have hq3 : ∃ z, c3.qs q = some z ∧ z.tries = 0 ∧ z.nexttry = y.nexttry := by
      rcases tg.new q y hy with ⟨cb, h⟩ | ⟨h, hlt, _⟩
      · exact ⟨_, h, h0, rfl⟩
      · exfalso
        have : ∃ z, c3.qs q = some z := by
          cases nq with
          | no => exact ⟨_, hx2⟩
          | @yes t _ _ n =>
            have hi : CInv c2 := n.start
            obtain ⟨z, _, hz, _⟩ := n.mine hi.lnodup ((hi.qlive q x hx2).2) hx2
            exact ⟨z, hz⟩
        obtain ⟨z, hz⟩ := this
        rw [hz] at h
        cases h
    obtain ⟨z, hz, hz0, hzn⟩ := hq3
    rw [← hzn]
    intro a ma ha
    have ma3 := sub _ a ma
    cases nq with
    | no =>
      rw [hx2] at hz
      cases hz
      omega
    | @yes t _ _ n =>
      have hi : CInv c2 := n.start
      refine n.again_least hi.lnodup ((hi.qlive q x hx2).2) hx2 h3 hz hz0 (fun a ma ha => h8 a ?_ ha) a ma3 ha
      rw [← st.rrs]
      exact ma

/-- Where the entries of the cache come from, call by call. -/
theorem Reach.entries {env : Env} {d d' : D Ptrs} {o : Op} {a : OpOut} (h : Reach env d) (hs : OpSafe env d.c d.q.walk o)
    (e : Mdns.step env o d = .ok (a, d')) : ∀ i, ∀ b ∈ d'.c.rrs i, b ∈ d.c.rrs i ∨
      ∃ now m src, o = .recv now m src ∧ m.header.qr = true ∧ ∃ r ∈ m.an, r.ttl ≠ 0 ∧ carries r b = true ∧ b.ttl = lease now r := by
  have hd := h.did hs e
  have hi := h.inv
  have hi' := (h.step hs e).inv.cinv
  have hb : ∀ i, ∀ b ∈ d.c.rrs i, bucket b.name lprime = i := by
    intro i b mb
    obtain ⟨e, me, rfl⟩ := List.mem_map.mp mb
    exact hi.cinv.cbucket i e me
  have hb' : ∀ i, ∀ b ∈ d'.c.rrs i, bucket b.name lprime = i := by
    intro i b mb
    obtain ⟨e, me, rfl⟩ := List.mem_map.mp mb
    exact hi'.cbucket i e me
  have o0 : Origin (fun b => (b ∈ d.c.rrs (bucket b.name lprime)) ∨
      ∃ now m src, o = .recv now m src ∧ m.header.qr = true ∧ ∃ r ∈ m.an, r.ttl ≠ 0 ∧ carries r b = true ∧ b.ttl = lease now r) (fun _ => True) d.c :=
    ⟨fun i b mb => .inl (by rw [hb i b mb]; exact mb), fun _ _ => trivial⟩
  have o1 := o0.did hd hi (fun _ _ => trivial) (by
    intro now m src ho hq r mr hw
    have hs := newEntry_shows hw src (lease now r)
    have ht : (Core.newEntry r src (lease now r)).ttl = lease now r := newEntry_ttl ..
    refine ⟨fun _ _ => trivial, fun h0 => ⟨.inr ⟨now, m, src, ho, hq, r, mr, h0, hs.data, ht⟩, trivial⟩, fun h0 b _ hc => ?_⟩
    exact .inr ⟨now, m, src, ho, hq, r, mr, h0, hc, rfl⟩)
  intro i b mb
  rcases o1.cache i b mb with h | h
  · rw [hb' i b mb] at h
    exact .inl h
  · exact .inr h

end Mdns
