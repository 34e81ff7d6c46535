import Verif.Lemmas.Limits

/-!
# Responses for everyone, record by record

Every record of a response was added because it seemed to fit.
-/

namespace Mdns

/-- A response for everyone: records as they were at the beginning, added one after the other
when they seemed to fit. -/
inductive Packed (c0 : Core) : Out → Prop
  | nil : Packed c0 {}
  | put {m : Out} {r : Nat} {x : Rec} (s : Section) (h : Packed c0 m) (hx : c0.recs r = some x)
      (hf : m.len + rrLen x.rr < c0.frame) : Packed c0 (m.put s r x.rr (x.cls c0.cls))

theorem Packed.add {c0 c : Core} {m : Out} (h : Packed c0 m) (k : Kept c0 c) (hc : c.frame = c0.frame) {r : Nat} {x : Rec}
    (s : Section) (hx : c.recs r = some x) (hf : m.len + rrLen x.rr < c.frame) :
    Packed c0 (m.put s r x.rr (x.cls c.cls)) := by
  obtain ⟨x0, h1, h2, h3⟩ := k.2 r x hx
  have e : x.cls c.cls = x0.cls c0.cls := by
    unfold Rec.cls
    rw [k.1]
    by_cases hu : x.unique = 0
    · rw [if_neg (by simp [hu]), if_neg (by simp [h3.mp hu])]
    · rw [if_pos hu, if_pos (fun h => hu (h3.mpr h))]
  rw [e, h2]
  rw [h2, hc] at hf
  exact .put s h h1 hf

/-- Records and message agree with the beginning of the call. -/
structure OPacked (c0 : Core) (s : OSt) : Prop where
  kept : Kept c0 s.c
  frame : s.c.frame = c0.frame
  packed : Packed c0 s.m

theorem ROut.packed {c0 : Core} {w : W} {s t : OSt} (n : ROut w s t) (h : OPacked c0 s) : OPacked c0 t := by
  induction n with
  | empty => exact h
  | full => exact h
  | skip _ _ _ _ _ _ ih => exact ih ⟨h.kept, h.frame, h.packed⟩
  | send _ _ hx hf _ _ _ ih =>
    exact ih ⟨h.kept.set hx rfl rfl rfl Iff.rfl, h.frame, h.packed.add h.kept h.frame _ hx hf⟩
  | bye _ _ hx hf _ _ _ ih => exact ih ⟨h.kept.drop rfl rfl, h.frame, h.packed.add h.kept h.frame _ hx hf⟩

theorem PubL.packed {c0 : Core} {pre suf : List Nat} {s t : OSt} (n : PubL pre suf s t) (h : OPacked c0 s) : OPacked c0 t := by
  induction n with
  | done => exact h
  | full => exact h
  | keep _ _ hx hf _ _ _ ih =>
    exact ih ⟨h.kept.set hx rfl rfl rfl Iff.rfl, h.frame, h.packed.add h.kept h.frame _ hx hf⟩
  | last _ _ hx hf _ _ _ ih =>
    exact ih ⟨h.kept.set hx rfl rfl rfl Iff.rfl, h.frame, h.packed.add h.kept h.frame _ hx hf⟩
  | bye _ _ hx hf _ _ ih => exact ih ⟨h.kept.drop rfl rfl, h.frame, h.packed.add h.kept h.frame _ hx hf⟩

theorem PubOpt.packed {c0 : Core} {s t : OSt} (n : PubOpt s t) (h : OPacked c0 s) : OPacked c0 t := by
  cases n with
  | no => exact h
  | yes _ _ _ n =>
    have k := n.packed h
    refine ⟨k.kept.congr ?_ ?_, ?_, k.packed⟩
    · dsimp only; split <;> rfl
    · dsimp only; split <;> rfl
    · dsimp only; split <;> exact k.frame

theorem PauseOpt.packed {c0 : Core} {s t : OSt} (n : PauseOpt s t) (h : OPacked c0 s) : OPacked c0 t := by
  cases n with
  | no => exact h
  | yes _ _ n => exact n.packed h

theorem AddL.packed {c0 c : Core} {J : Nat → Prop} {m m' : Out} {s s' : List Nat} (n : AddL c J m s m' s')
    (k : Kept c0 c) (hc : c.frame = c0.frame) (h : Packed c0 m) : Packed c0 m' := by
  induction n with
  | nil => exact h
  | add _ _ hx hf _ ih => exact ih.add k hc _ hx hf

/-- Every response for everyone is made this way. -/
theorem OutMsg.packed {env : Env} {c : Core} {l : Lists} {ret : Nat} {m : Out} {to : Addr} {c' : Core} {l' : Lists}
    (n : OutMsg env c l ret m to c' l') (hm : c.uanswers = []) (hq : m.qr = true) : Packed c m := by
  have h0 : OPacked c ⟨c, l, {}, [], 0⟩ := ⟨.refl c, rfl, .nil⟩
  cases n with
  | unicast h => rw [hm] at h; cases h
  | shutdown h n1 n2 => exact (n2.packed (n1.packed h0)).packed
  | normal h n1 n2 hs n3 =>
    have h2 := n2.packed (n1.packed h0)
    cases n3 with
    | answers np na =>
      have h3 := np.packed h2
      exact na.packed h3.kept h3.frame h3.packed
    | probes np na hr nb => rw [nb.qr] at hq; cases hq
    | questions np na hr nb _ nq => rw [nq.qr, nb.qr] at hq; cases hq

theorem Packed.id {c0 : Core} {m : Out} (h : Packed c0 m) : m.id = 0 ∧ m.qr = true ∧ m.aa = true := by
  induction h with
  | nil => exact ⟨rfl, rfl, rfl⟩
  | put _ _ _ _ ih => exact ih

theorem Packed.recs {c0 : Core} {m : Out} (h : Packed c0 m) : ∀ t ∈ m.tags, ∃ x, c0.recs t.2 = some x := by
  induction h with
  | nil => intro t ht; cases ht
  | put s _ hx _ ih =>
    intro t ht
    rw [put_tags] at ht
    rcases List.mem_append.mp ht with ht | ht
    · exact ih t ht
    · rw [List.mem_singleton] at ht; subst ht; exact ⟨_, hx⟩

/-- The calls that add a record. -/
def Core.recOps (c : Core) (t : Section × Nat) : List MOp :=
  match c.recs t.2 with
  | some x => rrOps t.1 x.rr (x.cls c.cls)
  | none => []

/-- The calls of a response. -/
theorem Packed.ops {c0 : Core} {m : Out} (h : Packed c0 m) : m.ops = m.tags.flatMap c0.recOps := by
  induction h with
  | nil => rfl
  | @put m r x s _ hx _ ih =>
    rw [put_tags, List.flatMap_append, ← ih]
    show m.ops ++ rrOps s x.rr (x.cls c0.cls) = _
    simp [Core.recOps, hx]

/-- Raw data ends within the first 4096 bytes. -/
theorem Packed.raw {c0 : Core} {m : Out} (h : Packed c0 m) (hc : c0.frame ≤ 3844) {pre post : List MOp} {b : Bytes}
    (e : m.ops = pre ++ .b (.raw b) :: post) : (pre.foldl mstep {}).pkt.length + b.length ≤ 4096 := by
  induction h generalizing pre post with
  | nil => cases pre <;> cases e
  | @put m r x s _ hx hf ih =>
    have e : m.ops ++ rrOps s x.rr (x.cls c0.cls) = pre ++ .b (.raw b) :: post := e
    rcases List.append_eq_append_iff.mp e with ⟨a, e1, e2⟩ | ⟨a, e1, e2⟩
    · -- in the record added last
      have hd : ∀ o ∈ a, ∃ s n t c l, o = MOp.b (.rr s n t c l) := by
        intro o ho
        unfold rrOps at e2
        cases a with
        | nil => cases ho
        | cons o1 a =>
          injection e2 with e3 e4
          subst e3
          cases a with
          | nil => rw [List.mem_singleton] at ho; subst ho; exact ⟨_, _, _, _, _, rfl⟩
          | cons o2 a =>
            exfalso
            have : (aCopy x.rr).length ≤ 1 := by
              unfold aCopy
              (repeat' split) <;> simp
            rw [e4] at this
            simp at this
      have hraw : x.rr.rdata = some b := by
        have hm : MOp.b (.raw b) ∈ rrOps s x.rr (x.cls c0.cls) := by rw [e2]; simp
        unfold rrOps aCopy at hm
        rcases List.mem_cons.mp hm with hm | hm
        · cases hm
        · (repeat' split at hm) <;> simp at hm
          rw [hm]; assumption
      have ha : a.length ≤ 1 := by
        have h1 : (rrOps s x.rr (x.cls c0.cls)).length ≤ 2 := by
          unfold rrOps aCopy
          (repeat' split) <;> simp
        rw [e2] at h1
        simp at h1
        omega
      have hl := (foldl_len a (m.ops.foldl mstep {})).2.2
      have hs : (a.map MOp.most).sum ≤ 264 := by
        cases a with
        | nil => simp
        | cons o a =>
          cases a with
          | nil =>
            obtain ⟨_, _, _, _, _, rfl⟩ := hd o (by simp)
            simp [MOp.most, maxCost]
          | cons _ _ => simp at ha
      rw [e1, List.foldl_append]
      rw [Out.len_ops] at hf
      unfold rrLen at hf
      rw [hraw] at hf
      simp only [Option.getD_some] at hf
      omega
    · -- before
      cases a with
      | nil =>
        simp only [List.nil_append] at e2
        unfold rrOps at e2
        injection e2 with e2 _
        cases e2
      | cons o a =>
        rw [List.cons_append] at e2
        injection e2 with e2 e3
        subst e2
        exact ih e1

end Mdns
