import Verif.Props.Options

/-!
# C93: options of `mquery`
-/

namespace Mdns.Opt

open Mdns.CLib

/-- The options `mquery` goes on after: `-6`, `-D`, `-T`, `-s`, any argument, and a log level other than -1 (C52). -/
def Item.goodq : Item → Prop
  | .flag c => c = 0x36 ∨ c = 0x44 ∨ c = 0x54 ∨ c = 0x73
  | .value c v => c = 0x6C → (Log.setLevel 0 v).1 ≠ -1
  | .word _ => True

theorem qspec_dash : mquerySpec 0x2D = none := by decide

/-- What items make of the variables. -/
structure QSets (its : List Item) (o o' : QOpts) : Prop where
  ipv6 : o'.ipv6 = (o.ipv6 || its.contains (.flag 0x36))
  devmode : o'.devmode = (o.devmode || its.contains (.flag 0x44) || (lastOf 0x64 its).isSome)
  terminate : o'.terminate = (o.terminate || its.contains (.flag 0x54))
  simple : o'.simple = (o.simple || its.contains (.flag 0x73))
  detail : o'.detail = (lastOf 0x64 its).or o.detail
  iface : o'.ifname = (lastOf 0x69 its).or o.ifname
  type : o'.type = ((lastOf 0x74 its).map atoi).getD o.type
  wait : o'.wait = ((lastOf 0x77 its).map atoi).getD o.wait
  level : lastOf 0x6C its = none → o'.loglevel = o.loglevel
  levels : ∀ v, lastOf 0x6C its = some v → 0 ≤ (Log.setLevel 0 v).1 → o'.loglevel = (Log.setLevel 0 v).1

theorem flag_beq (c c' : UInt8) : (Item.flag c' == Item.flag c) = (c == c') := by
  rw [Bool.eq_iff_iff, beq_iff_eq, beq_iff_eq]
  exact ⟨fun h => by injection h with h; exact h.symm, fun h => by rw [h]⟩

theorem flag_value (c c' : UInt8) (v : Bytes) : (Item.flag c' == Item.value c v) = false := by
  rw [Bool.eq_false_iff]; intro h; cases beq_iff_eq.mp h

theorem flag_word (c' : UInt8) (v : Bytes) : (Item.flag c' == Item.word v) = false := by
  rw [Bool.eq_false_iff]; intro h; cases beq_iff_eq.mp h

theorem lastOf_isSome (c : UInt8) : ∀ its : List Item, (lastOf c its).isSome = true ↔ ∃ v, .value c v ∈ its
  | [] => by simp [lastOf]
  | i :: its => by
    have ih := lastOf_isSome c its
    rw [lastOf_cons, Option.isSome_or, Bool.or_eq_true, ih]
    cases i with
    | value c' v =>
      by_cases hc : c' = c
      · subst hc; simp
      · simp [hc, Ne.symm hc]
    | _ => simp

theorem qopts_sets : ∀ (its : List Item) (o : QOpts),
    (∀ i ∈ its, (∀ c, i = .flag c → mquerySpec c = some false) ∧ ∀ c v, i = .value c v → mquerySpec c = some true) →
    (∀ i ∈ its, i.goodq) → ∃ o', mqueryOpts o (its.filterMap Item.got) = .inl o' ∧ QSets its o o'
  | [], o, _, _ => ⟨o, rfl, ⟨by simp, by simp [lastOf], by simp, by simp, rfl, rfl, rfl, rfl, fun _ => rfl, fun v h => by cases h⟩⟩
  | i :: its, o, hf, hg => by
    have f := hf i (by simp)
    have g := hg i (by simp)
    have ih := fun o => qopts_sets its o (fun j m => hf j (by simp [m])) fun j m => hg j (by simp [m])
    cases i with
    | word w =>
      obtain ⟨o', e, s⟩ := ih o
      have lo : ∀ c, lastOf c (.word w :: its) = lastOf c its := fun c => by rw [lastOf_cons]; simp
      refine ⟨o', e, ⟨?_, ?_, ?_, ?_, ?_, ?_, ?_, ?_, fun h => ?_, fun v h => ?_⟩⟩
      · rw [s.ipv6, List.contains_cons, flag_word, Bool.false_or]
      · rw [s.devmode, List.contains_cons, flag_word, Bool.false_or, lo]
      · rw [s.terminate, List.contains_cons, flag_word, Bool.false_or]
      · rw [s.simple, List.contains_cons, flag_word, Bool.false_or]
      · rw [lo]; exact s.detail
      · rw [lo]; exact s.iface
      · rw [lo]; exact s.type
      · rw [lo]; exact s.wait
      · rw [lo] at h; exact s.level h
      · rw [lo] at h; exact s.levels v h
    | flag c =>
      have lo : ∀ c', lastOf c' (.flag c :: its) = lastOf c' its := fun c => by rw [lastOf_cons]; simp
      have next : ∀ o1, mqueryOpt o (c, none) = .inl o1 → o1.ipv6 = (o.ipv6 || c == 0x36) → o1.devmode = (o.devmode || c == 0x44) →
          o1.terminate = (o.terminate || c == 0x54) → o1.simple = (o.simple || c == 0x73) → o1.detail = o.detail → o1.ifname = o.ifname →
          o1.type = o.type → o1.wait = o.wait → o1.loglevel = o.loglevel →
          ∃ o', mqueryOpts o ((Item.flag c :: its).filterMap Item.got) = .inl o' ∧ QSets (.flag c :: its) o o' := by
        intro o1 e1 h1 h2 h3 h4 h5 h6 h7 h8 h9
        obtain ⟨o', e, s⟩ := ih o1
        refine ⟨o', ?_, ⟨?_, ?_, ?_, ?_, ?_, ?_, ?_, ?_, fun h => ?_, fun v h => ?_⟩⟩
        · show mqueryOpts o ((c, none) :: its.filterMap Item.got) = _
          rw [mqueryOpts, e1]
          exact e
        · rw [s.ipv6, h1, List.contains_cons, flag_beq, Bool.or_assoc]
        · rw [s.devmode, h2, List.contains_cons, flag_beq, lo, Bool.or_assoc o.devmode]
        · rw [s.terminate, h3, List.contains_cons, flag_beq, Bool.or_assoc]
        · rw [s.simple, h4, List.contains_cons, flag_beq, Bool.or_assoc]
        · rw [lo, ← h5]; exact s.detail
        · rw [lo, ← h6]; exact s.iface
        · rw [lo, ← h7]; exact s.type
        · rw [lo, ← h8]; exact s.wait
        · rw [lo] at h; rw [← h9]; exact s.level h
        · rw [lo] at h; exact s.levels v h
      rcases g with rfl | rfl | rfl | rfl
      · exact next { o with ipv6 := true } rfl (by simp) (by simp) (by simp) (by simp) rfl rfl rfl rfl rfl
      · exact next { o with devmode := true } rfl (by simp) (by simp) (by simp) (by simp) rfl rfl rfl rfl rfl
      · exact next { o with terminate := true } rfl (by simp) (by simp) (by simp) (by simp) rfl rfl rfl rfl rfl
      · exact next { o with simple := true } rfl (by simp) (by simp) (by simp) (by simp) rfl rfl rfl rfl rfl
    | value c v =>
      have next : ∀ o1, mqueryOpt o (c, some v) = .inl o1 → o1.ipv6 = o.ipv6 → o1.devmode = (o.devmode || c == 0x64) →
          o1.terminate = o.terminate → o1.simple = o.simple → o1.detail = (if c = 0x64 then some v else o.detail) →
          o1.ifname = (if c = 0x69 then some v else o.ifname) → o1.type = (if c = 0x74 then atoi v else o.type) →
          o1.wait = (if c = 0x77 then atoi v else o.wait) →
          (c ≠ 0x6C → o1.loglevel = o.loglevel) → (c = 0x6C → 0 ≤ (Log.setLevel 0 v).1 → o1.loglevel = (Log.setLevel 0 v).1) →
          ∃ o', mqueryOpts o ((Item.value c v :: its).filterMap Item.got) = .inl o' ∧ QSets (.value c v :: its) o o' := by
        intro o1 e1 h1 h2 h3 h4 h5 h6 h7 h8 h9 h10
        obtain ⟨o', e, s⟩ := ih o1
        refine ⟨o', ?_, ⟨?_, ?_, ?_, ?_, ?_, ?_, ?_, ?_, fun h => ?_, fun v' h => ?_⟩⟩
        · show mqueryOpts o ((c, some v) :: its.filterMap Item.got) = _
          rw [mqueryOpts, e1]
          exact e
        · rw [s.ipv6, h1, List.contains_cons, flag_value, Bool.false_or]
        · rw [s.devmode, h2, List.contains_cons, flag_value, Bool.false_or, lastOf_cons]
          cases lastOf 0x64 its <;> by_cases hc : c = 0x64 <;> simp [hc, beq_false_of_ne]
        · rw [s.terminate, h3, List.contains_cons, flag_value, Bool.false_or]
        · rw [s.simple, h4, List.contains_cons, flag_value, Bool.false_or]
        · rw [lastOf_cons, s.detail, h5]
          cases lastOf 0x64 its <;> by_cases hc : c = 0x64 <;> simp [hc]
        · rw [lastOf_cons, s.iface, h6]
          cases lastOf 0x69 its <;> by_cases hc : c = 0x69 <;> simp [hc]
        · rw [lastOf_cons, s.type, h7]
          cases lastOf 0x74 its <;> by_cases hc : c = 0x74 <;> simp [hc]
        · rw [lastOf_cons, s.wait, h8]
          cases lastOf 0x77 its <;> by_cases hc : c = 0x77 <;> simp [hc]
        · rw [lastOf_cons] at h
          have h' := Option.or_eq_none_iff.mp h
          have hc : c ≠ 0x6C := fun hc => by have := h'.2; simp [hc] at this
          rw [s.level h'.1, h9 hc]
        · rw [lastOf_cons] at h
          cases hl : lastOf 0x6C its with
          | some w =>
            rw [hl] at h
            exact s.levels v' (by rw [hl]; simpa using h)
          | none =>
            rw [hl] at h
            by_cases hc : c = 0x6C
            · intro h0
              have : v = v' := by simpa [hc] using h
              subst this
              rw [s.level hl, h10 hc h0]
            · simp [hc] at h
      have hc := f.2 c v rfl
      unfold mquerySpec at hc
      split at hc
      · rename_i hq
        rcases hq with rfl | rfl | rfl | rfl | rfl
        · exact next { o with ifname := some v } rfl rfl (by simp) rfl rfl rfl rfl rfl rfl (fun _ => rfl) (fun h => absurd h (by decide))
        · exact next { o with detail := some v, devmode := true } rfl rfl (by simp) rfl rfl rfl rfl rfl rfl (fun _ => rfl) (fun h => absurd h (by decide))
        · have hn := g rfl
          refine next { o with loglevel := (Log.setLevel o.loglevel v).2 } ?_ rfl (by simp) rfl rfl rfl rfl rfl rfl (fun h => absurd rfl h) (fun _ h => ?_)
          · show (if (Log.setLevel 0 v).1 = -1 then _ else _) = _
            rw [if_neg hn]; rfl
          · show (if (Log.setLevel 0 v).1 ≥ 0 then (Log.setLevel 0 v).1 else o.loglevel) = _
            rw [if_pos h]
        · exact next { o with type := atoi v } rfl rfl (by simp) rfl rfl rfl rfl rfl rfl (fun _ => rfl) (fun h => absurd h (by decide))
        · exact next { o with wait := atoi v } rfl rfl (by simp) rfl rfl rfl rfl rfl rfl (fun _ => rfl) (fun h => absurd h (by decide))
      · split at hc <;> cases hc

/-- If the loop ends, no option ended the program. -/
theorem qopts_good : ∀ (gs : List Got) (o o' : QOpts), mqueryOpts o gs = .inl o' →
    ∀ g ∈ gs, g.1 ≠ 0x3F ∧ g.1 ≠ 0x68 ∧ g.1 ≠ 0x76 ∧ (g.1 = 0x6C → (Log.setLevel 0 (g.2.getD [])).1 ≠ -1)
  | [], o, o', h => fun g m => by simp at m
  | g :: gs, o, o', h => by
    rw [mqueryOpts] at h
    cases e : mqueryOpt o g with
    | inr n => rw [e] at h; cases h
    | inl o1 =>
      rw [e] at h
      have i2 := qopts_good gs o1 o' h
      have key : g.1 ≠ 0x3F ∧ g.1 ≠ 0x68 ∧ g.1 ≠ 0x76 ∧ (g.1 = 0x6C → (Log.setLevel 0 (g.2.getD [])).1 ≠ -1) := by
        refine ⟨fun h => ?_, fun h => ?_, fun h => ?_, fun h hn => ?_⟩
        · unfold mqueryOpt at e; simp [h] at e
        · unfold mqueryOpt at e; simp [h] at e
        · unfold mqueryOpt at e; simp [h] at e
        · have e2 : mqueryOpt o g = (if (Log.setLevel 0 (g.2.getD [])).1 = -1 then .inr 1
              else .inl { o with loglevel := (Log.setLevel o.loglevel (g.2.getD [])).2 }) := by
            unfold mqueryOpt; simp only [h]; rfl
          rw [e2, if_pos hn] at e; cases e
      exact List.forall_mem_cons.mpr ⟨key, i2⟩

/-- C93, `mquery`: however the options are written, the last interface, type, time and device given are used, and the first operand is
the name asked for; a device asked for means that devices are shown. -/
theorem C93_query {posix : Bool} {its : List Item} {args : List Bytes} (n : Written posix mquerySpec its args) (hg : ∀ i ∈ its, i.goodq) :
    ∃ o, mquery posix args = .inl (o, (operands its).head?) ∧
      (o.ipv6 = true ↔ .flag 0x36 ∈ its) ∧ (o.devmode = true ↔ .flag 0x44 ∈ its ∨ ∃ v, .value 0x64 v ∈ its) ∧
      (o.terminate = true ↔ .flag 0x54 ∈ its) ∧ (o.simple = true ↔ .flag 0x73 ∈ its) ∧
      o.detail = lastOf 0x64 its ∧ o.ifname = lastOf 0x69 its ∧ o.type = ((lastOf 0x74 its).map atoi).getD 12 ∧
      o.wait = ((lastOf 0x77 its).map atoi).getD 0 ∧ (lastOf 0x6C its = none → o.loglevel = 5) ∧
      (∀ v, lastOf 0x6C its = some v → 0 ≤ (Log.setLevel 0 v).1 → o.loglevel = (Log.setLevel 0 v).1) := by
  obtain ⟨o, e, s⟩ := qopts_sets its {} n.fits hg
  refine ⟨o, ?_, ?_, ?_, ?_, ?_, ?_, ?_, s.type, s.wait, s.level, s.levels⟩
  · unfold mquery
    rw [n.getopt qspec_dash]
    dsimp only
    rw [e]
  · rw [s.ipv6]; simp
  · rw [s.devmode]
    simp only [Bool.false_or, Bool.or_eq_true, List.contains_iff_mem, lastOf_isSome]
  · rw [s.terminate]; simp
  · rw [s.simple]; simp
  · rw [s.detail]; simp
  · rw [s.iface]; simp

/-- C93, nothing is guessed: `mquery` asks only if every word of the command line is an operand or an option with its argument, and
all of them are acceptable. -/
theorem C93_query_understood {posix : Bool} {args : List Bytes} {o : QOpts} {name : Option Bytes}
    (h : mquery posix args = .inl (o, name)) : ∃ its, Written posix mquerySpec its args ∧ ∀ i ∈ its, i.goodq := by
  unfold mquery at h
  dsimp only at h
  split at h
  · cases h
  · rename_i o' e
    have g := qopts_good _ _ _ e
    obtain ⟨its, n⟩ := written_of (posix := posix) (spec := mquerySpec) args.length args (Nat.le_refl _) fun x m => (g x m).1
    rw [n.getopt qspec_dash] at g
    refine ⟨its, n, fun i m => ?_⟩
    have f := n.fits i m
    cases i with
    | word => trivial
    | flag c =>
      obtain ⟨g1, g2, g3, _⟩ := g (c, none) (List.mem_filterMap.mpr ⟨_, m, rfl⟩)
      have hc := f.1 c rfl
      unfold mquerySpec at hc
      split at hc
      · cases hc
      · split at hc
        · rename_i hq
          rcases hq with h' | h' | h' | h' | h' | h' | h'
          · exact absurd h' g2
          · exact absurd h' g1
          · exact .inr (.inl h')
          · exact .inr (.inr (.inl h'))
          · exact .inl h'
          · exact .inr (.inr (.inr h'))
          · exact absurd h' g3
        · cases hc
    | value c v => exact (g (c, some v) (List.mem_filterMap.mpr ⟨_, m, rfl⟩)).2.2.2

/-- `mquery -Ts -t16 -i eth0 a`. -/
example : ∃ its, Written false mquerySpec its [[0x2D, 0x54, 0x73], [0x2D, 0x74, 0x31, 0x36], [0x2D, 0x69], [0x65, 0x74, 0x68, 0x30], [0x61]] ∧
    (∀ i ∈ its, i.goodq) ∧ lastOf 0x69 its = some [0x65, 0x74, 0x68, 0x30] ∧ (lastOf 0x74 its).map atoi = some 16 ∧
    .flag 0x54 ∈ its ∧ .flag 0x73 ∈ its ∧ operands its = [[0x61]] :=
  ⟨[.flag 0x54, .flag 0x73, .value 0x74 [0x31, 0x36], .value 0x69 [0x65, 0x74, 0x68, 0x30], .word [0x61]],
    .flags (fs := [0x54, 0x73]) (by simp) (by decide) (.joined (fs := []) (by simp) (by decide) (by simp) (.separate (fs := []) (by simp) (by decide)
      (.word (.inr (by decide)) rfl .nil))), by simp [Item.goodq], by decide, by decide, by decide, by decide, by decide⟩

end Mdns.Opt
