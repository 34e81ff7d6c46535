import Verif.Lemmas.Trace

/-!
# Steps in which entries come and go together with what is told about them
-/

namespace Mdns

/-- A step that does one thing, with the call of the callback it causes. -/
inductive VStep (env : Env) : Core → Core → Prop
  | frame {c c' : Core} (h : Frame env c c') : VStep env c c'
  /-- lifetimes changed -/
  | ttls {c : Core} (f : Nat → List Cached) (h : CInv c) (hf : ∀ i, Retimed (c.cache i) (f i)) :
      VStep env c { c with cache := f }
  /-- an entry without a query goes -/
  | lose {c : Core} {i k : Nat} {e : Cached} (h : CInv c) (hk : (c.cache i)[k]? = some e) (hq : e.q = none) :
      VStep env c { c with cache := upd c.cache i ((c.cache i).eraseIdx k) }
  /-- an entry with a query goes -/
  | lost {c : Core} {i k q : Nat} {e : Cached} {x : Query} (h : CInv c) (hk : (c.cache i)[k]? = some e)
      (hq : e.q = some q) (hx : c.qs q = some x) :
      VStep env c { c with cache := upd c.cache i ((c.cache i).eraseIdx k), log := c.log ++ [.answer q x.cb e.rr.gone] }
  /-- an entry nobody asked for comes -/
  | add {c : Core} {r : Resource} {src : Addr} (h : CInv c) (hr : r.WF)
      (hn : (c.rrs (bucket r.name lprime)).any (hit r) = false)
      (hq : ∀ q x, c.qs q = some x → ¬ (x.name = r.name ∧ x.type = r.type)) :
      VStep env c (c.setChain (bucket r.name lprime)
        (⟨Core.newEntry r src (c.expiry r), none⟩ :: c.cache (bucket r.name lprime)))
  /-- an entry somebody asked for comes -/
  | told {c : Core} {r : Resource} {src : Addr} {q : Nat} {x : Query} (h : CInv c) (hr : r.WF)
      (hn : (c.rrs (bucket r.name lprime)).any (hit r) = false) (hx : c.qs q = some x) (h1 : x.name = r.name)
      (h2 : x.type = r.type) :
      VStep env c { c with
        cache := upd c.cache (bucket r.name lprime)
          (⟨Core.newEntry r src (c.expiry r), some q⟩ :: c.cache (bucket r.name lprime))
        log := c.log ++ [.answer q x.cb (Core.newEntry r src (c.expiry r))] }
  /-- another callback for a query -/
  | setCb {c : Core} {q : Nat} {x : Query} (h : CInv c) (hx : c.qs q = some x) (cb : Nat) :
      VStep env c { c with qs := upd c.qs q (some { x with cb := cb }), log := c.log ++ [.registered x.name x.type cb] }
  /-- a new query -/
  | newq {c : Core} {host : Bytes} {type : Nat} (h : CInv c) (hn : ∀ q x, c.qs q = some x → ¬ (x.name = host ∧ x.type = type))
      (cb : Nat) : VStep env c (c.addQuery host type cb)
  /-- a query ends -/
  | endq {c c' : Core} {q : Nat} {x : Query} (h : CInv c) (hx : c.qs q = some x) (e : c.qDone q = .ok c') : VStep env c c'
  | reset {c : Core} {q : Nat} {x : Query} (h : CInv c) (hx : c.qs q = some x) : VStep env c (c.resetQ q x)
  | asked {c : Core} {q : Nat} {x : Query} (h : CInv c) (hx : c.qs q = some x) : VStep env c (c.askedQ q x)

/-- Such steps. -/
inductive VSteps (env : Env) : Core → Core → Prop
  | refl (c : Core) : VSteps env c c
  | step {a b c : Core} (h : VStep env a b) (n : VSteps env b c) : VSteps env a c

variable {env : Env} {K : Bytes → Nat → Option Nat → Prop}

theorem VSteps.one {a b : Core} (h : VStep env a b) : VSteps env a b := .step h (.refl _)

theorem VSteps.trans {a b c : Core} (h : VSteps env a b) (h' : VSteps env b c) : VSteps env a c := by
  induction h with
  | refl => exact h'
  | step h _ ih => exact .step h (ih h')

theorem VSteps.keep {P : Core → Prop} (hs : ∀ c c', P c → VStep env c c' → P c') {c c' : Core}
    (n : VSteps env c c') (h : P c) : P c' := by
  induction n with
  | refl => exact h
  | step s _ ih => exact ih (hs _ _ h s)

theorem CInv.query_v {c c' : Core} (h : CInv c) {host : Bytes} {type : Nat} {a : Option Nat}
    (e : c.query host type a = .ok c') : VSteps env c c' := by
  obtain ⟨o, h1, h2, h3⟩ := h.qFind host type
  cases o with
  | none =>
    cases a with
    | none =>
      unfold Core.query at e
      rw [h1] at e
      cases e
      exact .refl _
    | some cb =>
      rw [query_new h1] at e
      cases e
      exact .one (.newq h (h3 rfl) cb)
  | some q =>
    obtain ⟨x, hx, rfl, rfl⟩ := h2 q rfl
    unfold Core.query at e
    rw [h1] at e
    cases a with
    | none => exact .one (.endq h hx e)
    | some cb =>
      simp only [hx] at e
      cases e
      exact .one (.setCb h hx cb)

theorem CInv.register_v : ∀ (l : List (Bytes × Nat × Nat)) {c c' : Core}, CInv c →
    c.register l = .ok c' → VSteps env c c'
  | [], c, c', _, e => by cases e; exact .refl _
  | (host, type, cb) :: l, c, c', h, e => by
    obtain ⟨c1, e1, s1, _⟩ := h.queryOn host type cb
    unfold Core.register at e
    rw [e1] at e
    exact (h.query_v e1).trans (CInv.register_v l s1.inv e)

/-- The steps behind the call of a callback. -/
theorem CInv.callAnswer_v {c c' : Core} (h : CInv c) {q : Nat} {x : Query} {rr : Answer} {stop : Bool}
    (hx : c.qs q = some x) (hn : x.name = rr.name) (ht : typeFits x.type rr)
    (e : c.callAnswer env q rr = .ok (stop, c')) :
    VSteps env { c with log := c.log ++ [.answer q x.cb (c.seen rr)] } c' := by
  have hn' : x.name = (c.seen rr).name := by rw [hn]; unfold Core.seen; split <;> rfl
  have ht' : typeFits x.type (c.seen rr) := by unfold Core.seen; split <;> exact ht
  have h1 := h.addAnswer hx hn' ht'
  have e2 : c.callAnswer env q rr =
      match ({ c with log := c.log ++ [.answer q x.cb (c.seen rr)] } : Core).register
        (env.answer (c.log ++ [.answer q x.cb (c.seen rr)])).reg with
      | .ok c' => .ok ((env.answer (c.log ++ [.answer q x.cb (c.seen rr)])).stop, c')
      | .ub => .ub
      | .hang => .hang := by
    unfold Core.callAnswer
    rw [hx]
    rfl
  rw [e2] at e
  split at e
  · rename_i e3
    cases e
    exact h1.register_v _ e3
  · cases e
  · cases e

theorem CStep.v {c c' : Core} (n : CStep env K c c') : VSteps env c c' := by
  cases n with
  | frame h => exact .one (.frame h)
  | ttls f h hf => exact .one (.ttls f h hf)
  | query h _ e => exact h.query_v e
  | reset h hx => exact .one (.reset h hx)
  | asked h hx => exact .one (.asked h hx)
  | @expire _ i k en h0 hk hd e =>
    obtain ⟨_, h⟩ := erased h0 i k
    unfold Core.qAnswer at e
    cases hq : en.q with
    | none =>
      rw [hq] at e
      cases e
      exact .one (.lose h0 hk hq)
    | some q =>
      rw [hq] at e
      obtain ⟨x, hx, hn, ht⟩ := h0.cq i en q (List.mem_of_getElem? hk) hq
      obtain ⟨c1, evs, e1, s1, _⟩ := h.callAnswer env hx hn ht
      dsimp only at e
      rw [e1] at e
      have f1 := h.callAnswer_v hx hn ht e1
      have hs : ({ c with cache := upd c.cache i ((c.cache i).eraseIdx k) } : Core).seen en.rr = en.rr.gone := by
        unfold Core.seen
        exact if_pos hd
      rw [hs] at f1
      refine .step (.lost h0 hk hq hx) (f1.trans ?_)
      dsimp only at e
      split at e
      · obtain ⟨x1, hx1, _⟩ := s1.qs_ex hx
        exact .one (.endq s1.inv hx1 e)
      · cases e
        exact .refl _
  | @enter _ r src h hr hn e =>
    rw [insert_eq hn] at e
    obtain ⟨o, h1, h2, h3⟩ := h.qFind r.name r.type
    rw [h1] at e
    have h2' : ∀ q, ({ rr := Core.newEntry r src (c.expiry r), q := o } : Cached).q = some q →
        ∃ x, c.qs q = some x ∧ x.name = r.name ∧ x.type = r.type := h2
    have hi := h.withEntry (e := ⟨Core.newEntry r src (c.expiry r), o⟩) hr hn rfl h2'
    cases o with
    | none =>
      cases e
      exact .one (.add h hr hn (h3 rfl))
    | some q =>
      obtain ⟨x, hx, en, et⟩ := h2 q rfl
      dsimp only at e
      have hx' : (c.setChain (bucket r.name lprime) (⟨Core.newEntry r src (c.expiry r), some q⟩ ::
        c.cache (bucket r.name lprime))).qs q = some x := hx
      obtain ⟨c1, evs, e1, s1, _⟩ := hi.callAnswer env hx' (en.trans (newEntry_name r src (c.expiry r)).symm)
        (.inl (et.trans (newEntry_type r src (c.expiry r)).symm))
      rw [e1] at e
      have f1 := hi.callAnswer_v hx' (en.trans (newEntry_name r src (c.expiry r)).symm)
        (.inl (et.trans (newEntry_type r src (c.expiry r)).symm)) e1
      have hs : (c.setChain (bucket r.name lprime) (⟨Core.newEntry r src (c.expiry r), some q⟩ ::
          c.cache (bucket r.name lprime))).seen (Core.newEntry r src (c.expiry r)) = Core.newEntry r src (c.expiry r) := by
        unfold Core.seen
        refine if_neg ?_
        rw [newEntry_ttl]
        show ¬ c.now.sec + r.ttl / 2 + 8 ≤ c.now.sec
        omega
      rw [hs] at f1
      refine .step (.told (src := src) h hr hn hx en et) (f1.trans ?_)
      dsimp only at e
      split at e
      · split at e
        · rename_i q' hh
          obtain ⟨x', hx', _⟩ := s1.inv.cq (bucket r.name lprime) _ q' (List.mem_of_head? hh) rfl
          exact .one (.endq s1.inv hx' e)
        · cases e
      · cases e
        exact .refl _

theorem CSteps.v {c c' : Core} (n : CSteps env K c c') : VSteps env c c' := by
  induction n with
  | refl => exact .refl _
  | step h _ ih => exact h.v.trans ih

/-- An invariant of these steps holds in every state that can be reached. -/
theorem Reach.v {P : Core → Prop} (h0 : ∀ cls frame now, P (newD cls frame now).c)
    (hs : ∀ c c', P c → VStep env c c' → P c') {d : D Ptrs} (h : Reach env d) : P d.c :=
  h.invariant h0 fun _ _ _ hp n => n.v.keep hs hp

end Mdns
