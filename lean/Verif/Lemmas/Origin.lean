import Verif.Lemmas.Hearing
import Verif.Props.Sweep

/-!
# Where cached records come from
-/

namespace Mdns

/-- Every record in the cache is one of `C` and every record that was reported one of `T`. -/
structure Origin (C T : Answer → Prop) (c : Core) : Prop where
  cache : ∀ i, ∀ b ∈ c.rrs i, C b
  told : ∀ b ∈ answersOf c.log, T b

/-- The answers of a response may enter. -/
structure Enter (C T : Answer → Prop) (now : TV) (src : Addr) (a : Resource) : Prop where
  gone : ∀ b, C b → T b.gone
  fresh : a.ttl ≠ 0 → C (Core.newEntry a src (now.sec + a.ttl / 2 + 8)) ∧ T (Core.newEntry a src (now.sec + a.ttl / 2 + 8))
  again : a.ttl ≠ 0 → ∀ b, C b → carries a b = true → C { b with ttl := now.sec + a.ttl / 2 + 8 }

theorem answersOf_quiet {evs : List Event} (h : ∀ e ∈ evs, e.quiet) : answersOf evs = [] := by
  unfold answersOf
  rw [List.filterMap_eq_nil_iff]
  intro e m
  have := h e m
  cases e <;> first | rfl | exact absurd this (by simp [Event.quiet])

theorem Origin.frame {C T : Answer → Prop} {env : Env} {c c' : Core} (h : Origin C T c) (f : Frame env c c') : Origin C T c' := by
  obtain ⟨evs, e, hq⟩ := f.log
  refine ⟨fun i b m => h.cache i b ?_, fun b m => h.told b ?_⟩
  · unfold Core.rrs at *; rw [f.cache] at m; exact m
  · rw [e, answersOf_append, answersOf_quiet hq, List.append_nil] at m
    exact m

theorem Origin.removed {C T : Answer → Prop} {env : Env} {c c' : Core} {i : Nat} {p : Answer → Bool} {evs : List Event}
    (h : Origin C T c) (hg : ∀ b, C b → T b.gone) (r : Removed env i p c c' evs) : Origin C T c' := by
  refine ⟨fun j b m => ?_, fun b m => ?_⟩
  · by_cases hj : j = i
    · subst hj
      rw [r.rrs] at m
      exact h.cache _ b (List.mem_filter.mp m).1
    · rw [r.other j hj] at m
      exact h.cache _ b m
  · rw [r.cbs.log, answersOf_append, List.mem_append] at m
    rcases m with m | m
    · exact h.told b m
    · obtain ⟨b0, m0, rfl⟩ := List.mem_map.mp (r.ans.subset m)
      exact hg _ (h.cache _ _ (List.mem_filter.mp m0).1)

theorem Origin.swept {C T : Answer → Prop} {env : Env} {c c' : Core} {evs : List Event}
    (h : Origin C T c) (hg : ∀ b, C b → T b.gone) (r : Swept env c c' evs) : Origin C T c' := by
  refine ⟨fun j b m => h.cache j b ((r.sub j).subset m), fun b m => ?_⟩
  rw [r.log, answersOf_append, List.mem_append] at m
  rcases m with m | m
  · exact h.told b m
  · obtain ⟨i, a, ma, _, rfl, _⟩ := r.told b m
    exact hg _ (h.cache _ _ ma)

theorem Origin.inserted {C T : Answer → Prop} {env : Env} {c c' : Core} {a : Resource} {src : Addr} {evs : List Event}
    (h : Origin C T c) (hw : a.WF) (ht : a.ttl ≠ 0) (he : Enter C T c.now src a) (s : Cbs c c' evs)
    (r : Inserted env a src c c' evs) : Origin C T c' := by
  have hlog : c'.log = c.log ++ evs := s.log
  have hf := he.fresh ht
  cases r with
  | refresh _ e =>
    refine ⟨fun j b m => ?_, fun b m => h.told b (by rw [hlog, List.append_nil] at m; exact m)⟩
    rw [e] at m
    obtain ⟨en, me, rfl⟩ := List.mem_map.mp m
    unfold Core.setChain upd at me
    dsimp only at me
    split at me
    · obtain ⟨e0, m0, rfl⟩ := List.mem_map.mp me
      have hC := h.cache (bucket a.name lprime) e0.rr (List.mem_map_of_mem m0)
      split
      · rename_i hh
        rw [hit_carries hw] at hh
        exact he.again ht _ hC hh
      · exact hC
    · exact h.cache j _ (List.mem_map_of_mem me)
  | silent _ _ e =>
    refine ⟨fun j b m => ?_, fun b m => h.told b (by rw [hlog, List.append_nil] at m; exact m)⟩
    rw [e] at m
    obtain ⟨en, me, rfl⟩ := List.mem_map.mp m
    unfold Core.setChain upd at me
    dsimp only at me
    split at me
    · rcases List.mem_cons.mp me with rfl | m0
      · exact hf.1
      · exact h.cache (bucket a.name lprime) en.rr (List.mem_map_of_mem m0)
    · exact h.cache j _ (List.mem_map_of_mem me)
  | told q cb rest _ _ h1 h2 h3 =>
    refine ⟨fun j b m => ?_, fun b m => ?_⟩
    · by_cases hj : j = bucket a.name lprime
      · subst hj
        rw [h1] at m
        rcases List.mem_cons.mp m with rfl | m
        · exact hf.1
        · exact h.cache _ b m
      · rw [h2 j hj] at m
        exact h.cache j b m
    · rw [hlog, answersOf_append, List.mem_append] at m
      rcases m with m | m
      · exact h.told b m
      · have : answersOf (Event.answer q cb (Core.newEntry a src (c.expiry a)) :: rest) =
            [Core.newEntry a src (c.expiry a)] ++ answersOf rest := rfl
        rw [this, h3, List.append_nil, List.mem_singleton] at m
        subst m
        exact hf.2

theorem Origin.cacheIn {C T : Answer → Prop} {env : Env} {c c' : Core} {a : Resource} {src : Addr}
    (h : Origin C T c) (hi : CInv c) (hw : a.WF) (he : Enter C T c.now src a) (e : c.cacheIn env a src = .ok c') :
    Origin C T c' := by
  obtain ⟨c1, c2, ev1, ev2, e2, s, s1, s2, fl, en⟩ := hi.cacheIn env hw src
  rw [e] at e2
  cases e2
  have h1 : Origin C T c1 := by
    cases fl with
    | no _ e => subst e; exact h
    | yes _ r => exact h.removed he.gone r
  have hn : c1.now = c.now := s1.now
  cases en with
  | goodbye _ _ r => exact h1.removed he.gone r
  | nothing _ _ e => subst e; exact h1
  | insert ht r => exact h1.inserted hw ht (by rw [hn]; exact he) s2 r

theorem Origin.inA {C T : Answer → Prop} {env : Env} {src : Addr} {a : Resource} {did did' : Bool} {c c' : Core} {l l' : Lists}
    (h : Origin C T c) (n : InA env src a did c l did' c' l') (hw : a.WF) (hi : DInv c l) (he : Enter C T c.now src a) :
    Origin C T c' ∧ c'.now = c.now := by
  have rest : ∀ {c0 c' : Core}, CInv c0 → c0.cacheIn env a src = .ok c' → c'.now = c0.now := fun hi e => by
    obtain ⟨_, _, _, _, e2, s, _⟩ := hi.cacheIn env hw src
    rw [e] at e2
    cases e2
    exact s.now
  cases n with
  | cache _ e =>
    exact ⟨(h.frame (received_frame env c a)).cacheIn (hi.cinv.received a) hw he e, (rest (hi.cinv.received a) e).trans rfl⟩
  | own _ hl _ =>
    refine ⟨h.frame hl.frame, ?_⟩
    obtain ⟨ls, b, k, rfl, _⟩ := hl
    rfl
  | @conflict r x c1 c' _ hl hx _ e =>
    have e1 := doneSt_recfree (c1.heard [.conflict r x.rr.name x.rr.type]) l r x
    have f : Frame env c (doneSt (c1.heard [.conflict r x.rr.name x.rr.type]) l r x).c :=
      (hl.frame.trans (Frame.heard _ (by simp [Event.quiet]))).trans (.recfree e1)
    have hi2 := (done_inv hi hl hx).cinv
    have hn : (doneSt (c1.heard [.conflict r x.rr.name x.rr.type]) l r x).c.now = c.now := by
      have : (doneSt (c1.heard [.conflict r x.rr.name x.rr.type]) l r x).c.now = c1.now :=
        (congrArg Core.now e1 : (doneSt (c1.heard [.conflict r x.rr.name x.rr.type]) l r x).c.recfree.now = _)
      rw [this]
      obtain ⟨ls, b, k, rfl, _⟩ := hl
      rfl
    generalize (doneSt (c1.heard [.conflict r x.rr.name x.rr.type]) l r x).c = c2 at *
    refine ⟨(h.frame (f.trans (received_frame env c2 a))).cacheIn (hi2.received a) hw ?_ e, (rest (hi2.received a) e).trans hn⟩
    have : (c2.received a).now = c.now := hn
    rw [this]
    exact he

theorem Origin.inAs {C T : Answer → Prop} {env : Env} {src : Addr} {as : List Resource} {did : Bool} {c c' : Core}
    {l l' : Lists} (n : InAs env src as did c l c' l') : Origin C T c → (∀ a ∈ as, a.WF) → DInv c l →
    (∀ a ∈ as, Enter C T c.now src a) → Origin C T c' := by
  induction n with
  | nil => exact fun h _ _ _ => h
  | cons _ h1 _ ih =>
    intro h hw hi he
    obtain ⟨h2, hn⟩ := h.inA h1 (hw _ (by simp)) hi (he _ (by simp))
    exact ih h2 (fun a m => hw a (by simp [m])) (h1.inv (hw _ (by simp)) hi) (fun a m => by rw [hn]; exact he a (by simp [m]))

theorem Origin.inMsg {C T : Answer → Prop} {env : Env} {now : TV} {m : Msg} {src : Addr} {c c' : Core} {l l' : Lists}
    {ret : Nat} (h : Origin C T c) (n : InMsg env now m src c l ret c' l') (hw : ∀ a ∈ m.an, a.WF) (hi : DInv c l)
    (he : m.header.qr = true → ∀ a ∈ m.an, Enter C T now src a) : Origin C T c' := by
  cases n with
  | shutdown _ => exact h
  | own _ hl _ => exact h.frame ((Frame.now c now).trans hl.frame)
  | query _ _ hl _ n => exact h.frame (((Frame.now c now).trans hl.frame).trans n.frame)
  | @response c1 _ _ _ hq hl _ n =>
    have hn : c1.now = now := by
      obtain ⟨ls, b, k, rfl, _⟩ := hl
      rfl
    exact Origin.inAs n (h.frame ((Frame.now c now).trans hl.frame)) hw
      ⟨hl.cinv (hi.atNow now).cinv, hl.rinv (hi.atNow now).rinv⟩ (fun a ma => by rw [hn]; exact he hq a ma)

/-- A call. -/
theorem Origin.did {C T : Answer → Prop} {env : Env} {o : Op} {a : OpOut} {c c' : Core} {l l' : Lists}
    (h : Origin C T c) (n : Did env o c l a c' l') (hi : DInv c l) (hg : ∀ b, C b → T b.gone)
    (he : ∀ now m src, o = .recv now m src → m.header.qr = true → ∀ a ∈ m.an, a.WF → Enter C T now src a) : Origin C T c' := by
  by_cases ho : o.records
  · exact h.frame (n.frame ho)
  · cases n with
    | recv wf n => exact h.inMsg n wf hi (fun hq a ma => he _ _ _ rfl hq a ma (wf a ma))
    | send n =>
      obtain ⟨evs, w⟩ := n.asking.swept (hi.atNow _).cinv
      exact (h.frame (Frame.now (env := env) c _)).swept hg w
    | @query hn t cb _ _ _ e s =>
      have hlog : answersOf c'.log = answersOf c.log := by
        cases cb with
        | some cb =>
          obtain ⟨c1, e1, _, e2⟩ := hi.cinv.queryOn hn t cb
          rw [e] at e1
          cases e1
          rw [e2, answersOf_append]
          exact List.append_nil _
        | none =>
          obtain ⟨c1, e1, _, e2, _⟩ := hi.cinv.queryOff hn t
          rw [e] at e1
          cases e1
          rcases e2 with e2 | e2
          · rw [e2, answersOf_append]
            exact List.append_nil _
          · rw [e2]
      exact ⟨fun i b m => h.cache i b (by rw [s.rrs] at m; exact m), fun b m => h.told b (by rw [hlog] at m; exact m)⟩
    | _ => exact absurd trivial ho

end Mdns
