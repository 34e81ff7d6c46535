import Verif.Lemmas.Telling
import Verif.Props.Abiding

/-!
# C88: what a program was told is what is in the cache
-/

namespace Mdns

variable {env : Env} {host : Bytes} {type : Nat}

/-- C88: every record the program has is in the cache.  Missing from the full statement: queries
for any type. -/
theorem C88_told_listed_partial {d : D Ptrs} (hr : Reach env d) (hany : NoAny host d.c.log) {r : Answer}
    (h : Client host type d.c.log r) : ∃ b ∈ d.c.listed host type, SameRec b r := by
  obtain ⟨_, i, e, me, a, b, hs, _⟩ := hr.backed hany r h
  refine ⟨e.rr, ?_, hs⟩
  rw [mem_listed hr.inv.cinv]
  exact ⟨⟨i, e, me, rfl⟩, a, .inl b.symm⟩

theorem Calls.complete {d d' : D Ptrs} {h : List Call} (n : Calls env d h d') (hr : Reach env d) {S : Answer → Prop}
    (hS : ∀ a b, SameRec a b → S a → S b) {log0 : List Event} (h0 : Complete host type S log0 d.c) :
    Complete host type S log0 d'.c := by
  induction n with
  | nil => exact h0
  | @snoc _ d1 _ _ _ n hs e ih =>
    have hr1 := n.reach hr
    exact ((hr1.did hs e).steps hr1.inv).v.keep (fun _ _ hp n => hp.step hS n) ih

/-- C88: every record in the cache is one the program was told, unless it was there untold from the start.
Missing from the full statement: queries for any type. -/
theorem C88_listed_told_partial {d d' : D Ptrs} {h : List Call} {evs : List Event} (hr : Reach env d) (n : Calls env d h d')
    (hcb : (callback d.c.log host type).isSome) (hl : d'.c.log = d.c.log ++ evs) (hu : .unregistered host type ∉ evs)
    (hany : NoAny host d'.c.log) {b : Answer} (mb : b ∈ d'.c.listed host type) :
    Client host type d'.c.log b ∨ ∃ b0 ∈ d.c.listed host type, SameRec b0 b ∧ ¬ Client host type d.c.log b0 := by
  have hany0 : NoAny host d.c.log := by rw [hl] at hany; exact hany.sub
  have ht : type ≠ 255 := by
    rintro rfl
    obtain ⟨cb, e⟩ := Option.isSome_iff_exists.mp hcb
    exact hany0 cb (callback_registered e)
  have h0 : Complete host type (fun a => ∃ b0 ∈ d.c.listed host type, SameRec b0 a ∧ ¬ Client host type d.c.log b0) d.c.log d.c := by
    refine ⟨[], by simp, fun _ _ => ⟨hcb, fun i e me a b => ?_⟩⟩
    by_cases hc : Client host type d.c.log e.rr
    · exact .inl hc
    · exact .inr ⟨e.rr, (mem_listed hr.inv.cinv).mpr ⟨⟨i, e, me, rfl⟩, a, .inl b.symm⟩, .refl _, hc⟩
  obtain ⟨evs', hl', hp⟩ := n.complete hr (fun a b hs ⟨b0, m0, h1, h2⟩ => ⟨b0, m0, h1.trans hs, h2⟩) h0
  rw [hl] at hl'
  have := List.append_cancel_left hl'
  subst this
  obtain ⟨⟨i, e, me, rfl⟩, h1, h2⟩ := (mem_listed (n.reach hr).inv.cinv).mp mb
  exact (hp hu hany).2 i e me h1 ((h2.resolve_right ht).symm)

theorem listed_query {d d' : D Ptrs} {a : OpOut} {o : Option Nat} {h : Bytes} {t : Nat} (hr : Reach env d)
    (e : Mdns.step env (.query h t o) d = .ok (a, d')) : d'.c.listed host type = d.c.listed host type := by
  have hd := hr.did (o := .query h t o) trivial e
  generalize d'.c = c', d'.lists = l' at hd ⊢
  cases hd with
  | query _ q => rw [listed_eq, listed_eq, q.rrs]

theorem query_registers {d d' : D Ptrs} {a : OpOut} {cb : Nat} (hr : Reach env d)
    (e : Mdns.step env (.query host type (some cb)) d = .ok (a, d')) :
    d'.c.log = d.c.log ++ [.registered host type cb] := by
  have hd := hr.did (o := .query host type (some cb)) trivial e
  generalize d'.c = c', d'.lists = l' at hd ⊢
  cases hd with
  | query e q =>
    obtain ⟨c1, e1, _, l1⟩ := hr.inv.cinv.queryOn host type cb
    rw [e] at e1
    cases e1
    exact l1

/-- C88: a program that makes a query before anything of that name and type is in the cache has, at any time while the query
lasts, exactly the records in the cache.  Missing from the full statement: queries made when there is something in the cache, and
queries for any type. -/
theorem C88_exact_partial {d d1 d2 : D Ptrs} {h : List Call} {evs : List Event} {a : OpOut} {cb : Nat} (hr : Reach env d)
    (hnone : d.c.listed host type = []) (e : Mdns.step env (.query host type (some cb)) d = .ok (a, d1)) (n : Calls env d1 h d2)
    (hl : d2.c.log = d1.c.log ++ evs) (hu : .unregistered host type ∉ evs) (hany : NoAny host d2.c.log) (r : Answer) :
    Client host type d2.c.log r ↔ ∃ b ∈ d2.c.listed host type, SameRec b r := by
  have hr1 : Reach env d1 := hr.step (o := .query host type (some cb)) trivial e
  constructor
  · exact C88_told_listed_partial (n.reach hr1) hany
  · rintro ⟨b, mb, hs⟩
    refine client_same hs ?_
    refine (C88_listed_told_partial hr1 n ?_ hl hu hany mb).resolve_right ?_
    · rw [query_registers hr e, callback_append_registered, if_pos ⟨rfl, rfl⟩]
      rfl
    · rintro ⟨b0, m0, _⟩
      rw [listed_query hr e, hnone] at m0
      cases m0

/-- C88: with C87, a program that asks for what another daemon has published is told within four seconds, and has it
from then on.  Missing from the full statement: what `C87_known_partial` assumes, and queries for any type. -/
theorem C88_learned_partial {envA envB : Env} (hkA : envA.KeepOnExpiry) {top : Bytes} {d d1 d2 : D Ptrs} {T0 T L r cb : Nat} {x : Rec}
    {pre post : List Call} {evs : List Event} {a : OpOut} (hr : Timed envB pre d T0) (hnew : callback d.c.log x.rr.name x.rr.type = none)
    (e : Mdns.step envB (.query x.rr.name x.rr.type (some cb)) d = .ok (a, d1)) (n : Later envB d1 T0 post d2 T)
    (hx : x.rr.dotted = x.rr) (h0 : ∀ b' ∈ d.c.listed x.rr.name x.rr.type, ¬ SameRec b' x.rr)
    (hcon : Connected envA envB top r x d1 x.rr.name x.rr.type post)
    (hlife : SameLife x.rr.name x.rr.type L (pre ++ post)) (hund : Undisturbed x.rr post) (htend : Tended T0 post)
    (hup : ∀ p q d', post = p ++ q → Calls envB d1 p d' → d'.c.shutdown = false)
    (hl : d2.c.log = d1.c.log ++ evs) (hreg : .unregistered x.rr.name x.rr.type ∉ evs) (hany : NoAny x.rr.name d2.c.log)
    (hT : T0 + 4 ≤ T) : Client x.rr.name x.rr.type d2.c.log x.rr := by
  have h0' : ∀ b' ∈ d1.c.listed x.rr.name x.rr.type, ¬ SameRec b' x.rr := by
    rw [listed_query hr.reach e]
    exact h0
  have hr1 : Reach envB d1 := hr.reach.step (o := .query x.rr.name x.rr.type (some cb)) trivial e
  obtain ⟨b, mb, hs, _⟩ := C87_known_partial hkA hr hnew e n hx (.inl rfl) h0' hcon hlife hund htend hup hl hreg hT
  refine client_same hs ?_
  refine (C88_listed_told_partial hr1 n.calls ?_ hl hreg hany mb).resolve_right ?_
  · rw [query_registers hr.reach e, callback_append_registered, if_pos ⟨rfl, rfl⟩]
    rfl
  · rintro ⟨b0, m0, h1, _⟩
    exact h0' b0 m0 (h1.trans hs)

/-! ### Samples -/

namespace Sample

/-- The pointer of `ptrMsg` and another one. -/
def twoMsg (ttl : Nat) : Msg :=
  { id := 0, header := { qr := true }, qd := [],
    an := [⟨nm 97, 12, 1, ttl, [], .name (nm 98)⟩, ⟨nm 97, 12, 1, ttl, [], .name (nm 99)⟩], ns := [], ar := [] }

def asker : D Ptrs := (trace quiet [.query (nm 97) 12 (some 7)] (newD 1 1000 (at_ 100))).2

/-- Two records come, one of them goes, and the other is renewed. -/
def comings : List Op := [.recv (at_ 101) (twoMsg 120) other, .recv (at_ 102) (ptrMsg 0) other, .send (at_ 103),
  .recv (at_ 104) (twoMsg 240) other, .recv (at_ 105) (ptrMsg 0) other]

/-- A record comes before the query is made, and again afterwards. -/
def early : List Op := [.recv (at_ 100) (ptrMsg 120) other, .query (nm 97) 12 (some 7), .recv (at_ 101) (ptrMsg 120) other]

/-- A query for any type is made before the record goes. -/
def stolen : List Op := [.query (nm 97) 12 (some 7), .recv (at_ 100) (ptrMsg 120) other, .query (nm 97) 255 (some 8),
  .recv (at_ 101) (ptrMsg 0) other]

theorem reach_in {ops : List Op} (h : safeRunB quiet (newD 1 1000 (at_ 100)) ops = true) :
    Reach quiet (trace quiet ops (newD 1 1000 (at_ 100))).2 :=
  (calls_of h).reach (.new ..)

end Sample

open Sample in
/-- C88: of two records that come while the query lasts, one goes; the program has the other. -/
example : ∃ a d2 h evs, Mdns.step quiet (.query (nm 97) 12 (some 7)) (newD 1 1000 (at_ 100)) = .ok (a, asker) ∧
    (newD 1 1000 (at_ 100)).c.listed (nm 97) 12 = [] ∧ Calls quiet asker h d2 ∧ d2.c.log = asker.c.log ++ evs ∧
    .unregistered (nm 97) 12 ∉ evs ∧ NoAny (nm 97) d2.c.log ∧
    (d2.c.listed (nm 97) 12).map (·.rdname) = [some (nm 99)] ∧ (answersOf evs).map (·.ttl) = [169, 169, 0, 232, 0] := by
  obtain ⟨a, e1⟩ : ∃ a, Mdns.step quiet (.query (nm 97) 12 (some 7)) (newD 1 1000 (at_ 100)) = .ok (a, asker) :=
    step_of (.new ..) trivial
  have hr1 : Reach quiet asker := (Reach.new ..).step (o := .query (nm 97) 12 (some 7)) trivial e1
  have hs : safeRunB quiet asker comings = true := by decide +kernel
  have n := calls_of hs
  have hl : (trace quiet comings asker).2.c.log = asker.c.log ++ (trace quiet comings asker).2.c.log.drop 1 := by decide +kernel
  refine ⟨a, (trace quiet comings asker).2, (trace quiet comings asker).1, (trace quiet comings asker).2.c.log.drop 1, e1,
    by decide +kernel, n, hl, by decide +kernel, ?_, by decide +kernel, by decide +kernel⟩
  have : ∀ e ∈ (trace quiet comings asker).2.c.log, (match e with | .registered _ 255 _ => false | _ => true) = true := by
    decide +kernel
  intro cb m
  cases this _ m

open Sample in
/-- C88: in the sample of C87, which meets the other hypotheses of `C88_learned_partial`, there is no query for any type. -/
example : NoAny nameA (trace quiet abiding (browser 12)).2.c.log ∧
    (answersOf (trace quiet abiding (browser 12)).2.c.log).map (·.ttl) = [118] := by
  refine ⟨fun cb m => ?_, by decide +kernel⟩
  have : ∀ e ∈ (trace quiet abiding (browser 12)).2.c.log, (match e with | .registered _ 255 _ => false | _ => true) = true := by
    decide +kernel
  cases this _ m

open Sample in
/-- C88: of a record that is in the cache when the query is made the program is not told, even if it comes again. -/
theorem C88_cached_counterexample : ∃ (env : Env) (d : D Ptrs) (host : Bytes) (type : Nat) (b : Answer), Reach env d ∧
    NoAny host d.c.log ∧ (callback d.c.log host type).isSome ∧ b ∈ d.c.listed host type ∧ ¬ Client host type d.c.log b := by
  have hlog : (trace quiet early (newD 1 1000 (at_ 100))).2.c.log = [.registered (nm 97) 12 7] := by decide +kernel
  have hlist : ((trace quiet early (newD 1 1000 (at_ 100))).2.c.listed (nm 97) 12).length = 1 := by decide +kernel
  obtain ⟨b, hb⟩ := List.length_eq_one_iff.mp hlist
  refine ⟨quiet, (trace quiet early (newD 1 1000 (at_ 100))).2, nm 97, 12, b, reach_in (by decide +kernel), ?_, ?_, ?_, ?_⟩
  · rw [hlog]
    intro cb m
    simp at m
  · rw [hlog]; rfl
  · rw [hb]; simp
  · rw [hlog]
    exact id

open Sample in
/-- C88: when there is a query for any type too, the end of a record may be told to that one only. -/
theorem C88_any_counterexample : ∃ (env : Env) (d : D Ptrs) (host : Bytes) (type : Nat) (r : Answer), Reach env d ∧
    (callback d.c.log host type).isSome ∧ Client host type d.c.log r ∧ d.c.listed host type = [] := by
  have hlog : (trace quiet stolen (newD 1 1000 (at_ 100))).2.c.log = [.registered (nm 97) 12 7,
      .answer 0 7 { name := nm 97, type := 12, ttl := 168, rdname := some (nm 98), ip := #v[10, 0, 0, 9] },
      .registered (nm 97) 255 8,
      .answer 1 8 { name := nm 97, type := 12, ttl := 0, rdname := some (nm 98), ip := #v[10, 0, 0, 9] }] := by decide +kernel
  refine ⟨quiet, (trace quiet stolen (newD 1 1000 (at_ 100))).2, nm 97, 12,
    { name := nm 97, type := 12, ttl := 168, rdname := some (nm 98), ip := #v[10, 0, 0, 9] }, reach_in (by decide +kernel), ?_, ?_,
    by decide +kernel⟩
  · rw [hlog]; rfl
  · rw [hlog]
    simp only [Client, clientGo, clientStep]
    simp [callback, SameRec.refl]

end Mdns
