import Verif.Lemmas.Renewal

/-!
# Which cached records stay
-/

namespace Mdns

/-- A record of the kind `P` is in the cache. -/
def Stocked (P : Answer → Prop) (c : Core) : Prop := ∃ i, ∃ b ∈ c.rrs i, P b

/-- The answer leaves records of the kind `P` in the cache. -/
structure Spares (P : Answer → Prop) (now : TV) (a : Resource) : Prop where
  flush : 32768 ≤ a.cls → ∀ b, P b → b.is a.name a.type = false
  bye : a.ttl = 0 → ∀ b, P b → carries a b = false
  again : a.ttl ≠ 0 → ∀ b, P b → carries a b = true → P { b with ttl := now.sec + a.ttl / 2 + 8 }

/-- The answer brings a record of the kind `P` into the cache. -/
structure Brings (P : Answer → Prop) (now : TV) (src : Addr) (a : Resource) : Prop where
  ttl : a.ttl ≠ 0
  fresh : P (Core.newEntry a src (now.sec + a.ttl / 2 + 8))
  again : ∀ b, carries a b = true → P { b with ttl := now.sec + a.ttl / 2 + 8 }

theorem Stocked.frame {P : Answer → Prop} {env : Env} {c c' : Core} (h : Stocked P c) (f : Frame env c c') : Stocked P c' := by
  obtain ⟨i, b, m, hp⟩ := h
  refine ⟨i, b, ?_, hp⟩
  unfold Core.rrs at *
  rw [f.cache]
  exact m

theorem Stocked.removed {P : Answer → Prop} {env : Env} {c c' : Core} {i : Nat} {p : Answer → Bool} {evs : List Event}
    (h : Stocked P c) (r : Removed env i p c c' evs) (hl : ∀ b, P b → c.now.sec < b.ttl) (hp : ∀ b, P b → p b = false) : Stocked P c' := by
  obtain ⟨j, b, m, hb⟩ := h
  refine ⟨j, b, ?_, hb⟩
  by_cases hj : j = i
  · subst hj
    rw [r.rrs, List.mem_filter]
    refine ⟨m, ?_⟩
    simp [Core.live, hl b hb, hp b hb]
  · rw [r.other j hj]
    exact m

theorem Stocked.swept {P : Answer → Prop} {env : Env} {c c' : Core} {evs : List Event} (h : Stocked P c) (r : Swept env c c' evs)
    (hl : ∀ b, P b → c.now.sec < b.ttl) : Stocked P c' := by
  obtain ⟨j, b, m, hb⟩ := h
  refine ⟨j, b, ?_, hb⟩
  have : b ∈ (c.rrs j).filter c.live := List.mem_filter.mpr ⟨m, by simp [Core.live, hl b hb]⟩
  rw [← r.live] at this
  exact (List.mem_filter.mp this).1

theorem Stocked.inserted {P : Answer → Prop} {env : Env} {c c' : Core} {a : Resource} {src : Addr} {evs : List Event}
    (h : Stocked P c) (hw : a.WF) (ht : a.ttl ≠ 0) (hs : Spares P c.now a) (r : Inserted env a src c c' evs) : Stocked P c' := by
  obtain ⟨i, b, m, hb⟩ := h
  cases r with
  | refresh _ e =>
    subst e
    obtain ⟨en, me, rfl⟩ := List.mem_map.mp m
    by_cases hi : i = bucket a.name lprime
    · subst hi
      refine ⟨bucket a.name lprime, (if hit a en.rr then { en with rr := { en.rr with ttl := c.expiry a } } else en).rr, ?_, ?_⟩
      · exact List.mem_map_of_mem (f := Cached.rr) (by
          show _ ∈ upd c.cache _ _ _
          rw [upd_same]
          exact List.mem_map_of_mem me)
      · split
        · rename_i hh
          rw [hit_carries hw] at hh
          exact hs.again ht _ hb hh
        · exact hb
    · refine ⟨i, en.rr, List.mem_map_of_mem (f := Cached.rr) ?_, hb⟩
      show _ ∈ upd c.cache _ _ _
      rw [upd_other _ _ _ _ hi]
      exact me
  | silent _ _ e =>
    subst e
    obtain ⟨en, me, rfl⟩ := List.mem_map.mp m
    refine ⟨i, en.rr, List.mem_map_of_mem (f := Cached.rr) ?_, hb⟩
    show _ ∈ upd c.cache _ _ _
    by_cases hi : i = bucket a.name lprime
    · subst hi
      rw [upd_same]
      exact List.mem_cons_of_mem _ me
    · rw [upd_other _ _ _ _ hi]
      exact me
  | told q cb rest _ _ h1 h2 _ =>
    refine ⟨i, b, ?_, hb⟩
    by_cases hi : i = bucket a.name lprime
    · subst hi
      rw [h1]
      exact List.mem_cons_of_mem _ m
    · rw [h2 i hi]
      exact m

theorem Brings.inserted {P : Answer → Prop} {env : Env} {c c' : Core} {a : Resource} {src : Addr} {evs : List Event}
    (hw : a.WF) (hs : Brings P c.now src a) (r : Inserted env a src c c' evs) : Stocked P c' := by
  cases r with
  | refresh h e =>
    subst e
    obtain ⟨b, mb, hb⟩ := List.any_eq_true.mp h
    obtain ⟨en, me, rfl⟩ := List.mem_map.mp mb
    refine ⟨bucket a.name lprime, (if hit a en.rr then { en with rr := { en.rr with ttl := c.expiry a } } else en).rr, ?_, ?_⟩
    · exact List.mem_map_of_mem (f := Cached.rr) (by
        show _ ∈ upd c.cache _ _ _
        rw [upd_same]
        exact List.mem_map_of_mem me)
    · rw [if_pos hb]
      rw [hit_carries hw] at hb
      exact hs.again _ hb
  | silent _ _ e =>
    subst e
    refine ⟨bucket a.name lprime, _, List.mem_map_of_mem (f := Cached.rr) (a := ⟨Core.newEntry a src (c.expiry a), none⟩) ?_, hs.fresh⟩
    show _ ∈ upd c.cache _ _ _
    rw [upd_same]
    simp
  | told q cb rest _ _ h1 h2 _ =>
    refine ⟨bucket a.name lprime, _, ?_, hs.fresh⟩
    rw [h1]
    exact List.mem_cons_self

theorem Stocked.cacheIn {P : Answer → Prop} {env : Env} {c c' : Core} {a : Resource} {src : Addr}
    (hi : CInv c) (hw : a.WF) (hl : ∀ b, P b → c.now.sec < b.ttl)
    (hs : (Stocked P c ∧ Spares P c.now a) ∨ Brings P c.now src a) (e : c.cacheIn env a src = .ok c') : Stocked P c' := by
  obtain ⟨c1, c2, ev1, ev2, e2, s, s1, s2, fl, en⟩ := hi.cacheIn env hw src
  rw [e] at e2
  cases e2
  have hn : c1.now = c.now := s1.now
  rcases hs with ⟨h, hs⟩ | hs
  · have h1 : Stocked P c1 := by
      cases fl with
      | no _ e => subst e; exact h
      | yes hc r => exact h.removed r hl (hs.flush (by omega))
    cases en with
    | goodbye h0 _ r => exact h1.removed r (by rw [hn]; exact hl) (fun b hb => by rw [hit_carries hw]; exact hs.bye h0 b hb)
    | nothing _ _ e => subst e; exact h1
    | insert ht r => exact h1.inserted hw ht (by rw [hn]; exact hs) r
  · cases en with
    | goodbye h0 _ r => exact absurd h0 hs.ttl
    | nothing h0 _ e => exact absurd h0 hs.ttl
    | insert ht r => exact Brings.inserted hw (by rw [hn]; exact hs) r

/-- The answer is not ignored as one of our own. -/
theorem Stocked.inA {P : Answer → Prop} {env : Env} {src : Addr} {a : Resource} {did did' : Bool} {c c' : Core} {l l' : Lists}
    (n : InA env src a did c l did' c' l') (hw : a.WF) (hi : DInv c l) (hl : ∀ b, P b → c.now.sec < b.ttl)
    (hs : (Stocked P c ∧ (Spares P c.now a ∨ Brings P c.now src a)) ∨ (Brings P c.now src a ∧ Foreign env c src)) : Stocked P c' := by
  cases n with
  | cache _ e =>
    refine Stocked.cacheIn (hi.cinv.received a) hw hl ?_ e
    rcases hs with ⟨h, hs | hs⟩ | ⟨hs, _⟩
    · exact .inl ⟨h.frame (received_frame env c a), hs⟩
    · exact .inr hs
    · exact .inr hs
  | own _ hlo hf =>
    rcases hs with ⟨h, _⟩ | ⟨_, h⟩
    · exact h.frame hlo.frame
    · exact absurd h hf
  | @conflict r x c1 c' _ hlo hx _ e =>
    have e1 := doneSt_recfree (c1.heard [.conflict r x.rr.name x.rr.type]) l r x
    have f : Frame env c (doneSt (c1.heard [.conflict r x.rr.name x.rr.type]) l r x).c :=
      (hlo.frame.trans (Frame.heard _ (by simp [Event.quiet]))).trans (.recfree e1)
    have hi2 := (done_inv hi hlo hx).cinv
    have hn : (doneSt (c1.heard [.conflict r x.rr.name x.rr.type]) l r x).c.now = c.now := by
      have : (doneSt (c1.heard [.conflict r x.rr.name x.rr.type]) l r x).c.now = c1.now :=
        (congrArg Core.now e1 : (doneSt (c1.heard [.conflict r x.rr.name x.rr.type]) l r x).c.recfree.now = _)
      rw [this]
      obtain ⟨ls, b, k, rfl, _⟩ := hlo
      rfl
    generalize (doneSt (c1.heard [.conflict r x.rr.name x.rr.type]) l r x).c = c2 at *
    have hn : (c2.received a).now = c.now := hn
    refine Stocked.cacheIn (hi2.received a) hw (by rw [hn]; exact hl) ?_ e
    rw [hn]
    rcases hs with ⟨h, hs | hs⟩ | ⟨hs, _⟩
    · exact .inl ⟨h.frame (f.trans (received_frame env c2 a)), hs⟩
    · exact .inr hs
    · exact .inr hs

theorem InA.now {env : Env} {src : Addr} {a : Resource} {did did' : Bool} {c c' : Core} {l l' : Lists}
    (n : InA env src a did c l did' c' l') (hw : a.WF) (hi : DInv c l) : c'.now = c.now :=
  (Origin.inA (C := fun _ => True) (T := fun _ => True) ⟨fun _ _ _ => trivial, fun _ _ => trivial⟩ n hw hi
    ⟨fun _ _ => trivial, fun _ => ⟨trivial, trivial⟩, fun _ _ _ _ => trivial⟩).2

theorem Stocked.inAs {P : Answer → Prop} {env : Env} {src : Addr} {as : List Resource} {did : Bool} {c c' : Core}
    {l l' : Lists} (n : InAs env src as did c l c' l') : (∀ a ∈ as, a.WF) → DInv c l → (∀ b, P b → c.now.sec < b.ttl) →
    (∀ a ∈ as, Spares P c.now a ∨ Brings P c.now src a) →
    (Stocked P c ∨ (Foreign env c src ∧ ∃ a ∈ as, Brings P c.now src a)) → Stocked P c' := by
  induction n with
  | nil =>
    intro _ _ _ _ h
    rcases h with h | ⟨_, a, m, _⟩
    · exact h
    · cases m
  | @cons a as _ _ c c1 c' _ _ _ _ h1 _ ih =>
    intro hw hi hl hs h
    have hn := h1.now (hw _ (by simp)) hi
    refine ih (fun a m => hw a (by simp [m])) (h1.inv (hw _ (by simp)) hi) (by rw [hn]; exact hl)
      (fun a m => by rw [hn]; exact hs a (by simp [m])) ?_
    rcases h with h | ⟨hf, b, mb, hb⟩
    · exact .inl (Stocked.inA h1 (hw _ (by simp)) hi hl (.inl ⟨h, hs _ (by simp)⟩))
    · rcases List.mem_cons.mp mb with rfl | mb
      · exact .inl (Stocked.inA h1 (hw _ (by simp)) hi hl (.inr ⟨hb, hf⟩))
      · exact .inr ⟨(h1.same (hw _ (by simp)) hi hf).foreign, b, mb, by rw [hn]; exact hb⟩

theorem Stocked.inMsg {P : Answer → Prop} {env : Env} {now : TV} {m : Msg} {src : Addr} {c c' : Core} {l l' : Lists}
    {ret : Nat} (n : InMsg env now m src c l ret c' l') (hw : ∀ a ∈ m.an, a.WF) (hi : DInv c l) (hl : ∀ b, P b → now.sec < b.ttl)
    (hs : m.header.qr = true → ∀ a ∈ m.an, Spares P now a ∨ Brings P now src a)
    (h : Stocked P c ∨ (c.shutdown = false ∧ Foreign env c src ∧ m.header.qr = true ∧ ∃ a ∈ m.an, Brings P now src a)) : Stocked P c' := by
  cases n with
  | shutdown hsd =>
    rcases h with h | ⟨h, _⟩
    · exact h
    · rw [hsd] at h; cases h
  | own _ hlo hf =>
    rcases h with h | ⟨_, h, _⟩
    · exact h.frame ((Frame.now c now).trans hlo.frame)
    · exact absurd h hf
  | query _ hq hlo _ n =>
    rcases h with h | ⟨_, _, h, _⟩
    · exact h.frame (((Frame.now c now).trans hlo.frame).trans n.frame)
    · rw [hq] at h; cases h
  | @response c1 _ _ _ hq hlo hf n =>
    have hn : c1.now = now := by
      obtain ⟨ls, b, k, rfl, _⟩ := hlo
      rfl
    refine Stocked.inAs n hw ⟨hlo.cinv (hi.atNow now).cinv, hlo.rinv (hi.atNow now).rinv⟩ (by rw [hn]; exact hl)
      (by rw [hn]; exact hs hq) ?_
    rcases h with h | ⟨_, h, _, hb⟩
    · exact .inl (h.frame ((Frame.now c now).trans hlo.frame))
    · exact .inr ⟨hf h, by rw [hn]; exact hb⟩

/-- A call. -/
theorem Stocked.did {P : Answer → Prop} {env : Env} {o : Op} {a : OpOut} {c c' : Core} {l l' : Lists}
    (n : Did env o c l a c' l') (hi : DInv c l) (hl : ∀ b, P b → ∀ t, o.clock = some t → t.sec < b.ttl)
    (hs : ∀ now m src, o = .recv now m src → m.header.qr = true → ∀ a ∈ m.an, a.WF → Spares P now a ∨ Brings P now src a)
    (h : Stocked P c ∨ ∃ now m src, o = .recv now m src ∧ c.shutdown = false ∧ Foreign env c src ∧ m.header.qr = true ∧
      ∃ a ∈ m.an, a.WF → Brings P now src a) : Stocked P c' := by
  by_cases ho : o.records
  · rcases h with h | ⟨_, _, _, rfl, _⟩
    · exact h.frame (n.frame ho)
    · exact ho.elim
  · cases n with
    | recv wf n =>
      refine Stocked.inMsg n wf hi (fun b hb => hl b hb _ rfl) (fun hq a ma => hs _ _ _ rfl hq a ma (wf a ma)) ?_
      rcases h with h | ⟨_, _, _, e, h1, h2, h3, a, ma, h4⟩
      · exact .inl h
      · cases e
        exact .inr ⟨h1, h2, h3, a, ma, h4 (wf a ma)⟩
    | @send now _ _ _ _ _ _ _ n =>
      obtain ⟨evs, w⟩ := n.asking.swept (hi.atNow _).cinv
      rcases h with h | ⟨_, _, _, e, _⟩
      · exact (h.frame (Frame.now (env := env) c _)).swept w (fun b hb => hl b hb _ rfl)
      · cases e
    | @query hn t cb _ _ _ e s =>
      rcases h with ⟨i, b, mb, hb⟩ | ⟨_, _, _, e, _⟩
      · exact ⟨i, b, by rw [s.rrs]; exact mb, hb⟩
      · cases e
    | _ => exact absurd trivial ho

end Mdns
