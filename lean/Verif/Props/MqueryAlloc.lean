import Verif.Model.MqueryAlloc
import Verif.Props.Mquery

/-!
# C113: `mquery` when memory runs out
-/

namespace Mdns.Mquery

open Mdns.CLib

/-! ### The specification -/

/-- The entry of a service instance. -/
def Tables.inst (t : Tables) (n : Bytes) : Option Inst := t.instances.find? (·.iname == n)

/-- The second tables lack at most instances of which nothing but the name is known. -/
structure AsGood (t t' : Tables) : Prop where
  devices : t'.devices = t.devices
  asked : t'.asked = t.asked
  instances : ∀ n, t'.inst n = t.inst n ∨ (t'.inst n = none ∧ t.inst n = some { iname := n })

/-- The answer says something about a host or a service that has no entry. -/
def News (t : Tables) (a : Answer) : Prop :=
  a.ttl ≠ 0 ∧
    (((a.type = 1 ∨ a.type = 28) ∧ ∀ d ∈ t.devices, d.hostname ≠ a.name) ∨
     (a.type = 33 ∧ (∃ rd, a.rdname = some rd ∧ rd ≠ []) ∧ ∀ i ∈ t.instances, i.iname ≠ a.name) ∨
     (a.type = 16 ∧ (∃ b x, a.rdata = some b ∧ b ≠ [] ∧ SdTxt.txt2sd b b.length = .ok (some x) ∧
        (Xht.get x kwProduct ≠ none ∨ Xht.get x kwVersion ≠ none)) ∧ ∀ i ∈ t.instances, i.iname ≠ a.name))

/-! ### One answer -/

theorem ansDevF_enough (np : Ntop) (t : Tables) (a : Answer) (arg : Bool) : ansDevF true np t a arg = some (ansDev np t a arg) := by
  unfold ansDevF ansDev gotInst gotDev
  simp only [Bool.or_true, if_true]
  (repeat' split) <;> first | rfl | simp_all

theorem gotInst_false {l : List Inst} {n : Bytes} : gotInst false l n = false ↔ ∀ i ∈ l, i.iname ≠ n := by
  simp [gotInst]

theorem gotDev_false {l : List Dev} {n : Bytes} : gotDev false l n = false ↔ ∀ i ∈ l, i.hostname ≠ n := by
  simp [gotDev]

/-- **C113.** Without memory NULL is used exactly if an answer says something about a host or a service that has no entry yet: an address, a
host and port, or one of the two texts that are shown. -/
theorem C113_exact (np : Ntop) (t : Tables) (a : Answer) (arg : Bool) : ansDevF false np t a arg = none ↔ News t a := by
  unfold News ansDevF
  by_cases h0 : a.ttl = 0
  · simp [h0]
  simp only [h0, if_false, ne_eq, not_false_eq_true, true_and]
  by_cases h1 : a.type = 12
  · simp only [h1, if_true]
    constructor
    · intro h
      split at h
      · cases h
      · (repeat' split at h) <;> cases h
    · intro h
      rcases h with ⟨h | h, _⟩ | ⟨h, _⟩ | ⟨h, _⟩ <;> omega
  simp only [h1, if_false]
  by_cases h2 : a.type = 33
  · simp only [h2, if_true]
    cases hr : a.rdname with
    | none => simp
    | some rd =>
      cases rd with
      | nil => simp
      | cons b rd =>
        cases g : gotInst false t.instances a.name with
        | true =>
          have : ¬ ∀ i ∈ t.instances, i.iname ≠ a.name := fun e => by rw [gotInst_false.2 e] at g; cases g
          simpa using this
        | false =>
          have := gotInst_false.1 g
          simpa using this
  simp only [h2, if_false]
  by_cases h3 : a.type = 16
  · simp only [h3, if_true]
    cases hr : a.rdata with
    | none => simp
    | some b =>
      by_cases hb : b = []
      · subst hb; simp
      have hl : ¬ b.length = 0 := fun e => hb (List.length_eq_zero_iff.1 e)
      simp only [hl, if_false]
      cases ht : SdTxt.txt2sd b b.length with
      | ok o =>
        cases o with
        | none => simp [ht]
        | some x =>
          cases g : gotInst false t.instances a.name with
          | true =>
            have n : ¬ ∀ i ∈ t.instances, i.iname ≠ a.name := fun e => by rw [gotInst_false.2 e] at g; cases g
            constructor
            · intro h; simp at h
            · intro h
              rcases h with ⟨h | h, _⟩ | ⟨h, _⟩ | ⟨_, _, h⟩
              · omega
              · omega
              · exact h.elim
              · exact absurd h n
          | false =>
            have n := gotInst_false.1 g
            by_cases k : (Xht.get x kwProduct).isSome = true ∨ (Xht.get x kwVersion).isSome = true
            · have k' : Xht.get x kwProduct ≠ none ∨ Xht.get x kwVersion ≠ none := by
                rcases k with k | k
                · exact .inl fun e => by rw [e] at k; cases k
                · exact .inr fun e => by rw [e] at k; cases k
              simp only [Bool.false_eq_true, if_false, Bool.or_eq_true, k, if_true, true_iff]
              exact .inr (.inr ⟨trivial, ⟨b, x, rfl, hb, ht, k'⟩, n⟩)
            · simp only [Bool.false_eq_true, if_false, Bool.or_eq_true, k]
              constructor
              · intro h; cases h
              · intro h
                rcases h with ⟨h | h, _⟩ | ⟨h, _⟩ | ⟨_, ⟨b', x', e1, _, e2, k'⟩, _⟩
                · omega
                · omega
                · exact h.elim
                · cases e1
                  rw [ht] at e2
                  cases e2
                  refine absurd ?_ k
                  rcases k' with k' | k'
                  · exact .inl (Option.isSome_iff_ne_none.2 k')
                  · exact .inr (Option.isSome_iff_ne_none.2 k')
      | _ =>
        constructor
        · intro h; cases h
        · intro h
          rcases h with ⟨h | h, _⟩ | ⟨h, _⟩ | ⟨_, ⟨b', x', e1, _, e2, _⟩, _⟩
          · omega
          · omega
          · exact h.elim
          · cases e1
            rw [ht] at e2
            cases e2
  simp only [h3, if_false, false_and, or_false]
  by_cases h4 : a.type = 1
  · simp only [h4, if_true, true_or, true_and]
    cases g : gotDev false t.devices a.name with
    | true =>
      have n : ¬ ∀ i ∈ t.devices, i.hostname ≠ a.name := fun e => by rw [gotDev_false.2 e] at g; cases g
      simpa using n
    | false => simpa using gotDev_false.1 g
  simp only [h4, if_false, false_or]
  by_cases h5 : a.type = 28
  · simp only [h5, if_true, true_and]
    cases g : gotDev false t.devices a.name with
    | true =>
      have n : ¬ ∀ i ∈ t.devices, i.hostname ≠ a.name := fun e => by rw [gotDev_false.2 e] at g; cases g
      simpa using n
    | false => simpa using gotDev_false.1 g
  · simp [h5]

/-! ### All answers -/

private theorem got_none {l : List Inst} {n : Bytes} (g : gotInst false l n = false) : l.find? (·.iname == n) = none := by
  rw [List.find?_eq_none]
  intro i hi e
  exact gotInst_false.1 g i hi (by simpa using e)

private theorem got_true {mem : Bool} {l : List Inst} {n : Bytes} (g : gotInst mem l n = false) : mem = false := by
  cases mem with
  | false => rfl
  | true => simp [gotInst] at g

/-- With or without memory: either all is done, or an instance is not made of which nothing more is known. -/
private theorem ansDevF_cases (mem : Bool) (np : Ntop) (t s : Tables) (a : Answer × Bool) (h : ansDevF mem np t a.1 a.2 = some s) :
    s = ansDev np t a.1 a.2 ∨ (s = { ansDev np t a.1 a.2 with instances := t.instances } ∧
      ∃ n f, instChange n a = some f ∧ f { iname := n } = { iname := n } ∧ (∀ m, m ≠ n → instChange m a = none) ∧ t.inst n = none) := by
  cases mem with
  | true => rw [ansDevF_enough] at h; exact .inl (Option.some.inj h).symm
  | false =>
  by_cases h0 : a.1.ttl = 0
  · left; simpa [ansDevF, ansDev, h0] using h.symm
  by_cases h1 : a.1.type = 12
  · simp only [ansDevF, h0, h1, if_false, if_true] at h
    cases hr : a.1.rdname with
    | none => left; simpa [ansDev, h0, h1, hr] using h.symm
    | some rd =>
      rw [hr] at h
      by_cases he : rd = []
      · subst he; left; simpa [ansDev, h0, h1, hr] using h.symm
      have he' : rd.isEmpty = false := by cases rd with | nil => exact absurd rfl he | cons => rfl
      simp only [he'] at h
      cases hb : a.2 with
      | false => left; simpa [ansDev, h0, h1, hr, he', hb] using h.symm
      | true =>
        cases g : gotInst false t.instances rd with
        | true => left; simpa [ansDev, h0, h1, hr, he', hb, g] using h.symm
        | false =>
          right
          refine ⟨by simpa [ansDev, h0, h1, hr, he', hb, g] using h.symm, rd, id, ?_, rfl, ?_, got_none g⟩
          · simp [instChange, h0, h1, hr, hb, he]
          · intro m hm
            have : ¬ rd = m := fun e => hm e.symm
            simp [instChange, h0, h1, hr, this]
  by_cases h2 : a.1.type = 33
  · simp only [ansDevF, h0, h2, if_false, if_true] at h
    cases hr : a.1.rdname with
    | none => left; simpa [ansDev, h0, h2, hr] using h.symm
    | some rd =>
      rw [hr] at h
      by_cases he : rd = []
      · subst he; left; simpa [ansDev, h0, h2, hr] using h.symm
      have he' : rd.isEmpty = false := by cases rd with | nil => exact absurd rfl he | cons => rfl
      simp only [he'] at h
      cases g : gotInst false t.instances a.1.name with
      | true => left; simpa [ansDev, h0, h2, hr, he', g] using h.symm
      | false => simp [g] at h
  by_cases h3 : a.1.type = 16
  · rw [ansDevF, if_neg h0, if_neg h1, if_neg h2, if_pos h3] at h
    cases hr : a.1.rdata with
    | none => left; simpa [ansDev, h0, h3, hr] using h.symm
    | some b =>
      rw [hr] at h
      by_cases hb : b = []
      · subst hb; left; simpa [ansDev, h0, h3, hr] using h.symm
      have hl : ¬ b.length = 0 := fun e => hb (List.length_eq_zero_iff.1 e)
      simp only [hl, if_false] at h
      have none_else : ∀ m, m ≠ a.1.name → instChange m a = none := by
        intro m hm
        have : ¬ a.1.name = m := fun e => hm e.symm
        simp [instChange, h0, h3, hr, this]
      have hc : ∀ f, (match SdTxt.txt2sd b b.length with
          | .ok (some x) => setTxt x
          | _ => id) = f → instChange a.1.name a = some f := by
        intro f e
        subst e
        simp [instChange, h0, h3, hr, hb]
        cases SdTxt.txt2sd b b.length with
        | ok o => cases o <;> rfl
        | _ => rfl
      cases ht : SdTxt.txt2sd b b.length with
      | ok o =>
        rw [ht] at h hc
        cases o with
        | none =>
          cases g : gotInst false t.instances a.1.name with
          | true => left; simpa [ansDev, h0, h3, hr, hb, ht, g] using h.symm
          | false =>
            right
            exact ⟨by simpa [ansDev, h0, h3, hr, hb, ht, g] using h.symm, _, _, hc _ rfl, rfl, none_else, got_none g⟩
        | some x =>
          cases g : gotInst false t.instances a.1.name with
          | true => left; simpa [ansDev, h0, h3, hr, hb, ht, g] using h.symm
          | false =>
            right
            simp only [g, Bool.false_eq_true, if_false] at h
            split at h
            · cases h
            · next k =>
              have es : s = t := (Option.some.inj h).symm
              refine ⟨by subst es; simp [ansDev, h0, h3, hr, hb, ht], _, _, hc _ rfl, ?_, none_else, got_none g⟩
              simp only [Bool.or_eq_true, not_or, Option.not_isSome_iff_eq_none] at k
              simp [setTxt, k.1, k.2]
      | _ =>
        rw [ht] at h hc
        cases g : gotInst false t.instances a.1.name with
        | true => left; simpa [ansDev, h0, h3, hr, hb, ht, g] using h.symm
        | false =>
          right
          exact ⟨by simpa [ansDev, h0, h3, hr, hb, ht, g] using h.symm, _, _, hc _ rfl, rfl, none_else, got_none g⟩
  by_cases h4 : a.1.type = 1
  · cases g : gotDev false t.devices a.1.name with
    | true => left; simpa [ansDevF, ansDev, h0, h4, g] using h.symm
    | false => simp [ansDevF, h0, h4, g] at h
  by_cases h5 : a.1.type = 28
  · cases g : gotDev false t.devices a.1.name with
    | true => left; simpa [ansDevF, ansDev, h0, h5, g] using h.symm
    | false => simp [ansDevF, h0, h5, g] at h
  · left; simpa [ansDevF, ansDev, h0, h1, h2, h3, h4, h5] using h.symm

/-- What is asked next depends on the host of the instance only. -/
private theorem asked_same (np : Ntop) (t t' : Tables) (a : Answer × Bool) (h : AsGood t t') :
    (ansDev np t' a.1 a.2).asked = (ansDev np t a.1 a.2).asked := by
  have hf : ((t'.instances.find? (·.iname == a.1.name)).map (·.hostname)).getD [] =
      ((t.instances.find? (·.iname == a.1.name)).map (·.hostname)).getD [] := by
    rcases h.instances a.1.name with e | ⟨e, e'⟩
    · unfold Tables.inst at e; rw [e]
    · unfold Tables.inst at e e'; rw [e, e']; rfl
  unfold ansDev
  (repeat' split) <;> simp_all [h.asked]

private theorem sim_step (mem : Bool) (np : Ntop) (t t' s' : Tables) (a : Answer × Bool) (hs : Short a) (h : AsGood t t')
    (hk : (t.instances.map (·.iname)).Nodup) (hk' : (t'.instances.map (·.iname)).Nodup)
    (he : ansDevF mem np t' a.1 a.2 = some s') :
    AsGood (ansDev np t a.1 a.2) s' ∧ ((ansDev np t a.1 a.2).instances.map (·.iname)).Nodup ∧ (s'.instances.map (·.iname)).Nodup := by
  have hd : (ansDev np t' a.1 a.2).devices = (ansDev np t a.1 a.2).devices := by
    rw [ansDev_devices, ansDev_devices, h.devices]
  have ha := asked_same np t t' a h
  have h1 := fun m => (inst_step np t a hs m hk).1
  have h2 := (inst_step np t a hs [] hk).2
  rcases ansDevF_cases mem np t' s' a he with e | ⟨e, n, f, hc, hb, hn, hnone⟩
  · subst e
    refine ⟨⟨hd, ha, fun m => ?_⟩, h2, (inst_step np t' a hs [] hk').2⟩
    unfold Tables.inst
    rw [h1 m, (inst_step np t' a hs m hk').1]
    rcases h.instances m with e | ⟨e, e'⟩
    · unfold Tables.inst at e; rw [e]; exact .inl rfl
    · unfold Tables.inst at e e'
      rw [e, e']
      unfold instStep
      cases instChange m a with
      | none => exact .inr ⟨rfl, rfl⟩
      | some f => exact .inl rfl
  · subst e
    refine ⟨⟨hd, ha, fun m => ?_⟩, h2, hk'⟩
    have h1m := h1 m
    unfold Tables.inst
    rw [h1m]
    by_cases hm : m = n
    · subst hm
      right
      refine ⟨hnone, ?_⟩
      unfold instStep
      rw [hc]
      rcases h.instances m with e | ⟨_, e'⟩
      · rw [hnone] at e
        unfold Tables.inst at e
        rw [← e]
        exact congrArg some hb
      · unfold Tables.inst at e'
        rw [e']
        exact congrArg some hb
    · unfold instStep
      rw [hn m hm]
      exact h.instances m

private theorem sim (np : Ntop) (as : List ((Answer × Bool) × Bool)) (hs : ∀ a ∈ as, Short a.1) (t t' s' : Tables) (h : AsGood t t')
    (hk : (t.instances.map (·.iname)).Nodup) (hk' : (t'.instances.map (·.iname)).Nodup) (he : runF np as t' = some s') :
    AsGood (run np (as.map (·.1)) t) s' := by
  induction as generalizing t t' with
  | nil => cases he; exact h
  | cons a as ih =>
    obtain ⟨a, mem⟩ := a
    unfold runF at he
    cases e : ansDevF mem np t' a.1 a.2 with
    | none => rw [e] at he; cases he
    | some u =>
      rw [e] at he
      obtain ⟨i1, i2, i3⟩ := sim_step mem np t t' u a (hs _ List.mem_cons_self) h hk hk' e
      exact ih (fun b hb => hs b (List.mem_cons_of_mem _ hb)) (ansDev np t a.1 a.2) u i1 i2 i3 he

/-- **C113.** As long as memory does not run out, nothing changes. -/
theorem C113_enough (np : Ntop) (as : List (Answer × Bool)) (t : Tables) :
    runF np (as.map (·, true)) t = some (run np as t) := by
  induction as generalizing t with
  | nil => rfl
  | cons a as ih =>
    show (match ansDevF true np t a.1 a.2 with
      | some t => runF np (as.map (·, true)) t
      | none => none) = _
    rw [ansDevF_enough]
    exact ih _

/-- **C113.** Whenever memory was refused, and however often: as long as no answer made the program use NULL, the same hosts with the same
addresses are listed, the same further questions have been asked, and all that was said about a service is there; only services of which
nothing but the name is known can be absent.  The names are at most 255 bytes long, as all names of the parser are (C58). -/
theorem C113_same_partial (np : Ntop) (as : List ((Answer × Bool) × Bool)) (hs : ∀ a ∈ as, Short a.1) (t : Tables)
    (he : runF np as {} = some t) : AsGood (run np (as.map (·.1)) {}) t :=
  sim np as hs {} {} t ⟨rfl, rfl, fun _ => .inl rfl⟩ List.nodup_nil List.nodup_nil he

/-- **C113.** Memory may be refused in all answers that only name things: then NULL is never used. -/
theorem C113_safe_partial (np : Ntop) (as : List ((Answer × Bool) × Bool))
    (h : ∀ a ∈ as, a.2 = false → a.1.1.ttl = 0 ∨ a.1.1.type = 12) (t : Tables) : ∃ t', runF np as t = some t' := by
  induction as generalizing t with
  | nil => exact ⟨t, rfl⟩
  | cons a as ih =>
    obtain ⟨a, mem⟩ := a
    have : ∃ u, ansDevF mem np t a.1 a.2 = some u := by
      cases e : ansDevF mem np t a.1 a.2 with
      | some u => exact ⟨u, rfl⟩
      | none =>
        exfalso
        cases mem with
        | true => rw [ansDevF_enough] at e; cases e
        | false =>
          obtain ⟨h0, h1⟩ := (C113_exact np t a.1 a.2).1 e
          rcases h _ List.mem_cons_self rfl with k | k
          · exact h0 k
          · replace k : a.1.type = 12 := k
            rcases h1 with ⟨h1, _⟩ | ⟨h1, _⟩ | ⟨h1, _⟩ <;> omega
    obtain ⟨u, hu⟩ := this
    obtain ⟨t', ht⟩ := ih (fun b hb => h b (List.mem_cons_of_mem _ hb)) u
    exact ⟨t', by unfold runF; rw [hu]; exact ht⟩

/-- **C113, counterexample.** The first address of any host, at any time, makes the program write through NULL if `calloc` fails: the answer
of a stranger is enough, and no check is made in the code. -/
theorem C113_null_counterexample (np : Ntop) (as as' : List ((Answer × Bool) × Bool)) (t : Tables) (a : Answer) (arg : Bool)
    (h0 : a.ttl ≠ 0) (h1 : a.type = 1 ∨ a.type = 28) (ht : runF np as {} = some t) (hn : ∀ d ∈ t.devices, d.hostname ≠ a.name) :
    runF np (as ++ ((a, arg), false) :: as') {} = none := by
  have key : ∀ (as : List ((Answer × Bool) × Bool)) (u : Tables), runF np as u = some t →
      runF np (as ++ ((a, arg), false) :: as') u = none := by
    intro as
    induction as with
    | nil =>
      intro u hu
      cases hu
      have : ansDevF false np t a arg = none := (C113_exact np t a arg).2 ⟨h0, .inl ⟨h1, hn⟩⟩
      show (match ansDevF false np t a arg with
        | some t => runF np as' t
        | none => none) = none
      rw [this]
    | cons b as ih =>
      intro u hu
      obtain ⟨b, mem⟩ := b
      unfold runF at hu
      show (match ansDevF mem np u b.1 b.2 with
        | some t => runF np (as ++ ((a, arg), false) :: as') t
        | none => none) = none
      cases e : ansDevF mem np u b.1 b.2 with
      | none => rfl
      | some v => rw [e] at hu; exact ih v hu
  exact key as {} ht

/-! ### Cases -/

/-- A host gets a second address without memory, a service is only named: nothing but the blank entry is missing. -/
example : (∀ a ∈ [(addrOf [0x61] 1, true), (addrOf [0x61] 2, false), (({ name := [0x74], type := 12, ttl := 60, rdname := some [0x69] }, true), false)],
      Short a.1) ∧
    (runF sampleNtop [(addrOf [0x61] 1, true), (addrOf [0x61] 2, false),
      (({ name := [0x74], type := 12, ttl := 60, rdname := some [0x69] }, true), false)] {}).map
        (fun t => (t.devices.map (fun d => (d.hostname, d.addrs.length)), t.instances.length, t.asked)) =
      some ([([0x61], 2)], 0, [([0x69], 33), ([0x69], 16)]) ∧
    (run sampleNtop [addrOf [0x61] 1, addrOf [0x61] 2, ({ name := [0x74], type := 12, ttl := 60, rdname := some [0x69] }, true)] {}).instances.length = 1 := by
  refine ⟨?_, by decide +kernel, by decide +kernel⟩
  intro a ha
  simp [addrOf] at ha
  rcases ha with rfl | rfl | rfl <;> simp [Short]

/-- The service is described later: then it is there in full. -/
example : (runF sampleNtop [(({ name := [0x74], type := 12, ttl := 60, rdname := some [0x69] }, true), false), (srvOf [0x69] [0x61] 80, true)] {}).map
    (fun t => t.instances.map (fun i => (i.iname, i.hostname, i.port))) = some [([0x69], [0x61], 80)] := by decide +kernel

/-- The two ways to use NULL that are not in C113_null_counterexample. -/
example : (runF sampleNtop [(srvOf [0x69] [0x61] 80, false)] {}).isSome = false ∧
    (runF sampleNtop [(addrOf [0x61] 1, true), (addrOf [0x62] 1, false)] {}).isSome = false := by decide +kernel

end Mdns.Mquery
