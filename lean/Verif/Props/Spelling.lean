import Verif.Props.Finding
import Verif.Props.Lookups

/-!
# C101: which questions are answered
-/

namespace Mdns

/-! ### Specification -/

/-- The letter in lower case. -/
def lowered (c : UInt8) : UInt8 := if 65 ≤ c.toNat ∧ c.toNat ≤ 90 then c + 32 else c

/-- Two names are the same but for upper and lower case, RFC 6762 section 16. -/
def SameName (a b : Bytes) : Prop := a.map lowered = b.map lowered

/-- The question is for the record as RFC 6762 has it: names without regard to
case (section 16), type or ANY, class without regard to the top bit, which asks
for a unicast response (section 5.4). -/
def Question.for_ (cls : Nat) (q : Question) (a : Answer) : Prop :=
  q.cls % 32768 = cls ∧ SameName a.name q.name ∧ typeFits q.type a

/-- Written as the record is, with the class of the daemon. -/
theorem about_for {cls : Nat} (hc : cls < 32768) {q : Question} {a : Answer} (h : q.about cls a) : q.for_ cls a :=
  ⟨by rw [h.1]; omega, by rw [SameName, h.2.1], h.2.2⟩

/-! ### Proofs -/

theorem AnsL.uans {env : Env} {src : Addr} {q : Question} {an : List Resource} {rs : List Nat} {s t : ISt}
    (n : AnsL env src q an rs s t) : ∀ u ∈ t.c.uanswers, u ∈ s.c.uanswers := by
  induction n with
  | done h => exact fun u hu => hu
  | quiet _ _ _ hl _ _ ih =>
    intro u hu
    have := ih u hu
    obtain ⟨_, _, _, rfl, _⟩ := hl
    exact this
  | conflict _ _ _ hl _ _ ih =>
    intro u hu
    have := ih u hu
    obtain ⟨_, _, _, rfl, _⟩ := hl
    exact (List.mem_filter.mp this).1
  | known _ _ _ _ _ _ ih => exact ih
  | send _ _ _ _ _ _ ih =>
    intro u hu
    have := ih u hu
    rw [sendSt_uanswers] at this
    exact this

theorem InQ.uans {env : Env} {m : Msg} {src : Addr} {q : Question} {did did' : Bool} {c c' : Core} {l l' : Lists}
    (n : InQ env m src q did c l did' c' l') : ∀ u ∈ c'.uanswers, u ∈ c.uanswers ∨
      (u.to = src ∧ ∃ x, c.recs u.r = some x ∧ q.about c.cls x.rr) := by
  cases n with
  | none _ => exact fun u hu => .inl hu
  | disco _ _ _ n =>
    intro u hu
    rw [n.uanswers] at hu
    exact .inl hu
  | multi _ _ _ n _ => exact fun u hu => .inl (n.uans u hu)
  | @uni r rs t hc hd hm n hp =>
    intro u hu
    rcases List.mem_cons.mp hu with rfl | hu
    · refine .inr ⟨rfl, ?_⟩
      have hr : c.isRec q.name q.type r = true := by
        have : r ∈ c.matching q.name q.type := by rw [hm]; simp
        exact (List.mem_filter.mp this).2
      obtain ⟨x, hx, h1, h2⟩ := isRec_name hr
      exact ⟨x, hx, hc, h1, h2⟩
    · exact .inl (n.uans u hu)

theorem InQs.uans {env : Env} {m : Msg} {src : Addr} {qs : List Question} {did : Bool} {c c' : Core} {l l' : Lists}
    (n : InQs env m src qs did c l c' l') : ∀ u ∈ c'.uanswers, u ∈ c.uanswers ∨
      (u.to = src ∧ ∃ q ∈ qs, ∃ x, c.recs u.r = some x ∧ q.about c.cls x.rr) := by
  induction n with
  | nil => exact fun u hu => .inl hu
  | cons i h n ih =>
    intro u hu
    rcases ih u hu with hu | ⟨e, q, mq, x, hx, ha⟩
    · rcases h.uans u hu with hu | ⟨e, x, hx, ha⟩
      · exact .inl hu
      · exact .inr ⟨e, _, List.mem_cons_self .., x, hx, ha⟩
    · have hcls := h.around.1
      have hf := InQs.fewer (.cons i h .nil)
      exact .inr ⟨e, q, List.mem_cons_of_mem _ mq, x, hf _ _ hx, hcls ▸ ha⟩

/-- **C101 (partial).** A record that was set and announced is sent within the
packets made next, if a query has a question for it that is written like its
name, for its type or for ANY, with the class of the daemon, and does not list
it as known.  Missing: names in other case (`C101_case_counterexample`), the bit
that asks for a unicast response (`C101_unicast_counterexample`), and queries
that enumerate services (C33). -/
theorem C101_answered_partial {env : Env} {h : List Call} {d d' : D Ptrs} {now : TV} {m : Msg} {src : Addr}
    (k : Queried env h d now m src d') {r : Nat} {x : Rec} (hx : d.c.recs r = some x)
    (hs : ∃ k ∈ h, k.1.sets r = true) (hp : r ∉ d.q.walk .probing) (hb : r ∉ d.q.walk .publish)
    (hq : ∃ q ∈ m.qd, q.about d.c.cls x.rr) (hk : ∀ a ∈ m.an, carries a x.rr = false)
    (hd : d.c.disco = false) (hdn : ∀ q ∈ m.qd, q.name ≠ discoName) (fits : FitsAlone d.c) :
    ∃ N, ∀ h' d'', Calls env d' h' d'' → (∀ k ∈ h', ∃ t, k.1 = .send t ∧ tvdiff t d'.c.pause ≤ 0) → N ≤ h'.length →
      ∃ k ∈ h', Call.shows .an r k := by
  obtain ⟨l1, l2, l3⟩ := k.leaves hdn
  have hq' := k.queue hx hs hp hb hq hk
  have hr' : Reach env d' := by
    obtain ⟨a, e⟩ := k.done
    exact k.hist.reach.step (o := .recv now m src) k.wf e
  have hfr : d'.c.frame = d.c.frame := congrArg (·.2.1) l2
  have hup : d'.c.shutdown = false := (congrArg (·.2) l1 : d'.c.shutdown = d.c.shutdown).trans k.up
  have hf' : FitsAlone d'.c := by
    intro s y hy
    rw [hfr]
    exact fits s y (l3 s y hy)
  have hplain : d'.c.disco = false := (congrArg (·.1) l1 : d'.c.disco = d.c.disco).trans hd
  obtain ⟨N, hN⟩ := C33_queued_sent_partial hr' hplain hf' (r := r) (by
    split at hq'
    · exact .inl hq'
    · exact .inr ⟨hq', hup⟩)
  refine ⟨N, fun h' d'' n hsend hl => hN h' d'' n (fun k mk => ?_) hl⟩
  obtain ⟨t, e, ht⟩ := hsend k mk
  exact ⟨t, e, fun _ => ht⟩

/-- **C101, nothing else.** A record that no question is for is neither queued
for everyone nor for the querier. -/
theorem C101_unasked {env : Env} {h : List Call} {d d' : D Ptrs} {now : TV} {m : Msg} {src : Addr}
    (k : Queried env h d now m src d') (hc : d.c.cls < 32768) {r : Nat} {x : Rec} (hx : d.c.recs r = some x)
    (hq : ∀ q ∈ m.qd, ¬ q.for_ d.c.cls x.rr) :
    (∀ w, r ∈ d'.q.walk w → r ∈ d.q.walk w) ∧ ∀ u ∈ d'.c.uanswers, u.r = r → u ∈ d.c.uanswers := by
  have hq' : ∀ q ∈ m.qd, ¬ q.about d.c.cls x.rr := fun q mq ha => hq q mq (about_for hc ha)
  obtain ⟨c1, hl, hf, n, hcls⟩ := k.run
  have hr := k.hist.reach
  have i1 : DInv d'.c d'.lists := by
    obtain ⟨b, e⟩ := k.done
    exact (hr.step (o := .recv now m src) k.wf e).inv
  have hv := n.known (r := r) (x := x) (hl.recs ▸ hx) fun q mq ha => absurd (hcls ▸ ha) (hq' q mq)
  refine ⟨fun w hw => ?_, fun u hu hur => ?_⟩
  · have h1 := (mem_place i1.rinv w).mp hw
    rcases hv with hv | hv
    · have h2 : d'.lists.place r = d.lists.place r := congrArg View.at_ hv
      exact (mem_place hr.inv.rinv w).mpr (h2 ▸ h1)
    · have h2 : d'.lists.place r = none := congrArg View.at_ hv
      rw [h2] at h1
      cases h1
  · rcases n.uans u hu with hu | ⟨_, q, mq, y, hy, ha⟩
    · obtain ⟨_, _, _, rfl, _⟩ := hl
      exact hu
    · rw [hl.recs, hur] at hy
      have : y = x := by
        have hy' : d.c.recs r = some y := hy
        rw [hx] at hy'
        cases hy'
        rfl
      subst this
      exact absurd (hcls ▸ ha) (hq' q mq)

/-! ### Counterexamples -/

namespace Sample

/-- What was asked, as it is written or otherwise. -/
def asks (name : Bytes) (cls : Nat) : Msg := { ask (nm 97) 1 with qd := [⟨name, 1, cls⟩] }

/-- Whether the only question is for the first record. -/
def forB (d : D Ptrs) (q : Question) : Bool :=
  (d.c.recs 0).any fun x => q.cls % 32768 == d.c.cls && x.rr.name.map lowered == q.name.map lowered &&
    (q.type == x.rr.type || q.type == 255)

theorem for_of {d : D Ptrs} {q : Question} (h : forB d q = true) : ∃ x, d.c.recs 0 = some x ∧ q.for_ d.c.cls x.rr := by
  unfold forB at h
  cases hx : d.c.recs 0 with
  | none => rw [hx] at h; cases h
  | some x =>
    rw [hx] at h
    simp only [Option.any_some, Bool.and_eq_true, beq_iff_eq, Bool.or_eq_true] at h
    exact ⟨x, rfl, h.1.1, h.1.2, h.2⟩

/-- Whether the record waits nowhere and nothing is sent to the querier. -/
def silentB (d : D Ptrs) : Bool :=
  [W.probing, .publish, .now, .pause].all (fun w => !(d.q.walk w).contains 0) && d.c.uanswers.isEmpty

theorem silent_of {d : D Ptrs} (h : silentB d = true) : (∀ w, 0 ∉ d.q.walk w) ∧ d.c.uanswers = [] := by
  unfold silentB at h
  simp only [List.all_cons, List.all_nil, Bool.and_true, Bool.and_eq_true, Bool.not_eq_true', List.isEmpty_iff] at h
  refine ⟨fun w hw => ?_, h.2⟩
  have := List.contains_iff_mem.mpr hw
  cases w <;> simp_all

/-- After the record was announced. -/
abbrev told : D Ptrs := (trace quiet announced fresh).2

end Sample

open Sample in
/-- C101: a question with the bit that asks for a unicast response is not
answered at all (`libmdnsd/mdnsd.c:1132` compares the class with the bit). -/
theorem C101_unicast_counterexample : ∃ h d d' now m q, Queried quiet h d now m other d' ∧ m.qd = [q] ∧
    (∃ x, d.c.recs 0 = some x ∧ q.for_ d.c.cls x.rr ∧ x.rr.name = q.name) ∧ m.an = [] ∧
    (∀ w, 0 ∉ d'.q.walk w) ∧ d'.c.uanswers = [] := by
  refine ⟨_, told, _, at_ 110, asks (nm 97) 0x8001, _,
    queried_of (ops := announced) (now := at_ 110) (m := asks (nm 97) 0x8001) (by decide +kernel) (by decide +kernel)
      (by decide +kernel) (by decide +kernel) rfl, rfl, ?_, rfl, silent_of (by decide +kernel)⟩
  obtain ⟨x, hx, h⟩ := for_of (d := told) (q := ⟨nm 97, 1, 0x8001⟩) (by decide +kernel)
  refine ⟨x, hx, h, ?_⟩
  have : (told.c.recs 0).any (fun x => x.rr.name == nm 97) = true := by decide +kernel
  rw [hx] at this
  exact eq_of_beq this

open Sample in
/-- C101: a question that spells the name in other case is not answered
(`libmdnsd/mdnsd.c:172` compares the bytes). -/
theorem C101_case_counterexample : ∃ h d d' now m q, Queried quiet h d now m other d' ∧ m.qd = [q] ∧
    (∃ x, d.c.recs 0 = some x ∧ q.for_ d.c.cls x.rr) ∧ q.cls = d.c.cls ∧ m.an = [] ∧
    (∀ w, 0 ∉ d'.q.walk w) ∧ d'.c.uanswers = [] :=
  ⟨_, told, _, at_ 110, asks (nm 65) 1, _,
    queried_of (ops := announced) (now := at_ 110) (m := asks (nm 65) 1) (by decide +kernel) (by decide +kernel)
      (by decide +kernel) (by decide +kernel) rfl, rfl, for_of (by decide +kernel), by decide +kernel, rfl,
    silent_of (by decide +kernel)⟩

namespace Sample

/-- C101: the question as the record is written, and for ANY. -/
example : Queried quiet (trace quiet announced fresh).1 told (at_ 110) (ask (nm 97) 255) other
      (trace quiet [.recv (at_ 110) (ask (nm 97) 255) other] told).2 ∧
    (∃ x, told.c.recs 0 = some x ∧ (⟨nm 97, 255, 1⟩ : Question).for_ told.c.cls x.rr) ∧
    (∃ k ∈ (trace quiet announced fresh).1, k.1.sets 0 = true) ∧
    0 ∉ told.q.walk .probing ∧ 0 ∉ told.q.walk .publish ∧ told.c.disco = false ∧ FitsAlone told.c ∧
    ∀ q ∈ (ask (nm 97) 255).qd, q.name ≠ discoName :=
  have hh := hist_of (ops := announced) (by decide +kernel)
  ⟨queried_of (by decide +kernel) (by decide +kernel) (by decide +kernel) (by decide +kernel) rfl,
    for_of (by decide +kernel), by decide +kernel, by decide +kernel, by decide +kernel, by decide +kernel,
    fits_of hh.reach (by decide +kernel), by decide +kernel⟩

/-- C101: a question for another name. -/
example : Queried quiet (trace quiet announced fresh).1 told (at_ 110) (ask (nm 98) 1) other
      (trace quiet [.recv (at_ 110) (ask (nm 98) 1) other] told).2 ∧ told.c.cls < 32768 ∧
    (told.c.recs 0).any (fun x => (ask (nm 98) 1).qd.all fun q => q.name.map lowered != x.rr.name.map lowered) :=
  ⟨queried_of (by decide +kernel) (by decide +kernel) (by decide +kernel) (by decide +kernel) rfl, by decide +kernel,
    by decide +kernel⟩

end Sample

end Mdns
