import Verif.Props.Alloc
import Verif.Props.Missed

/-!
# C96: what goes wrong without memory
-/

namespace Mdns

/-! ### Addresses and raw data with enough memory -/

theorem Vec.add_done {α : Type} {v : Vec α} {l : List α} (a : α) (h : v.count = l.length) (hc : v.cells.getD [] = l.map some) :
    (v.add a true).count = (l ++ [a]).length ∧ (v.add a true).cells = some ((l ++ [a]).map some) := by
  unfold Vec.add
  simp only [Bool.not_true, Bool.false_eq_true, if_false, hc, h, List.length_map, List.length_append, List.length_singleton,
    List.map_append, List.map_cons, List.map_nil, true_and, Option.some.injEq]
  rw [show l.length + 1 - l.length = 1 by omega]
  rw [show List.replicate 1 (none : Option α) = [none] from rfl, List.set_append_right _ _ (by simp)]
  simp

theorem Vec.collect_done {α : Type} {mem : Nat → Bool} (hm : ∀ k, mem k = true) : ∀ (as : List α) (k : Nat) (v : Vec α) (l : List α),
    v.count = l.length → v.cells.getD [] = l.map some → (v.cells = none → l = []) →
      (Vec.collect mem k as v).read = .ok (l ++ as)
  | [], k, v, l, h, hc, hn => by
    unfold Vec.collect Vec.read
    cases hv : v.cells with
    | none =>
      have := hn hv
      subst this
      simp only
      rw [if_pos (show v.count = 0 from h)]
      rfl
    | some x =>
      rw [hv] at hc
      have hc : x = l.map some := hc
      subst hc
      have : ((l.map some).take v.count).mapM id = some l := by
        rw [List.take_of_length_le (by simp [h]), List.mapM_map]
        exact (List.mapM_pure (m := Option) (f := fun x : α => x)).trans (by simp)
      simp only [this, List.append_nil]
  | a :: as, k, v, l, h, hc, hn => by
    unfold Vec.collect
    rw [hm k]
    obtain ⟨h1, h2⟩ := Vec.add_done a h hc
    have := Vec.collect_done hm as (k + 1) (v.add a true) (l ++ [a]) h1 (by rw [h2]; rfl) (by rw [h2]; nofun)
    rw [this, List.append_assoc]
    rfl

/-- With enough memory the addresses of the interface are read as they were collected. -/
theorem C96_addresses {α : Type} {mem : Nat → Bool} (hm : ∀ k, mem k = true) (l : List α) :
    (Vec.collect mem 0 l {}).read = .ok l := by
  have := Vec.collect_done hm l 0 {} [] rfl rfl fun _ => rfl
  exact this

/-- If `realloc` fails once, for the second address of an interface or a later one, what is read afterwards is undefined: NULL, or
memory nobody wrote to. -/
theorem C96_addresses_counterexample :
    (∀ {α : Type} (a b : α), (Vec.collect (fun k => k == 0) 0 [a, b] {}).read = .ub) ∧
      ∀ {α : Type} (a b c : α), (Vec.collect (fun k => k != 1) 0 [a, b, c] {}).read = .ub :=
  ⟨fun _ _ => rfl, fun _ _ _ => rfl⟩

/-- With enough memory, data is compared with what was set. -/
theorem C96_raw (x : Raw) (data received : Bytes) : (x.set data true).matches received = .ok (decide (received = data)) := by
  unfold Raw.set Raw.matches
  simp only [if_true]
  by_cases hl : received.length = data.length
  · rw [if_neg (by simp [hl])]
    by_cases hr : received = []
    · subst hr
      have : data = [] := List.eq_nil_of_length_eq_zero hl.symm
      subst this
      rfl
    · rw [if_neg hr]
      congr 1
      by_cases h : received = data
      · subst h
        simp
      · simp [h]
  · rw [if_pos hl]
    congr 1
    symm
    exact decide_eq_false fun h => hl (by rw [h])

/-- A record whose data could not be replaced: every received record of that type with data of the old length makes the daemon read through
NULL. -/
theorem C96_raw_counterexample (x : Raw) {old new received : Bytes} (h : received.length = old.length) (h0 : received ≠ []) :
    ((x.set old true).set new false).matches received = .ub := by
  unfold Raw.set Raw.matches
  simp [h, h0]

/-! ### Names that could not be copied -/

namespace Sample

/-- The state after a call with too little memory. -/
def lacking (f : Fail) (d : D Ptrs) : D Ptrs := match stepFail quiet f d with
  | .ok (_, d') => d'
  | _ => d

/-- The same PTR record, received twice, and each time the name in it could not be copied. -/
def namelessTwice : D Ptrs :=
  lacking (.recv (at_ 102) (ptrMsg 120) other fun _ => .nameless) <|
    lacking (.recv (at_ 101) (ptrMsg 120) other fun _ => .nameless) (trace quiet [.query (nm 97) 12 (some 1)] fresh).2

/-- A PTR record whose name could not be copied, and an address; then a packet. -/
def namelessHost : List Call :=
  (trace quiet [.send (at_ 101)]
    (lacking (.setHost 0) (trace quiet [.shared (nm 97) 12 120, .shared (nm 98) 1 120, .setIp 1 ipA] fresh).2)).1

/-- Whether a packet can be decoded. -/
def decodes (m : Out) : Bool := match Datagram.meaning ⟨at_ 110, messagePacket m.builder, srcB⟩ with
  | .ok _ => true
  | _ => false

end Sample

open Sample in
/-- If the name in the data of a received record cannot be copied, the record is stored and told without it, and stored once more when it is
received again. -/
theorem C96_nameless_counterexample :
    (namelessTwice.c.listed (nm 97) 12).map (·.rdname) = [none, none] ∧
      (namelessTwice.c.log.filterMap fun e => match e with | .answer _ cb rr => some (cb, rr.type, rr.rdname) | _ => none) =
        [(1, 12, none), (1, 12, none)] := by
  decide +kernel

open Sample in
/-- If the name of a record cannot be copied, it is sent without data; the address in the same packet does not arrive either.  Had the name been
copied, both would arrive. -/
theorem C96_host_counterexample :
    (lastSent namelessHost).ops.length = 3 ∧ decodes (lastSent namelessHost) = false ∧
      decodes (lastSent (trace quiet [.shared (nm 97) 12 120, .setHost 0 (nm 99), .shared (nm 98) 1 120, .setIp 1 ipA, .send (at_ 101)]
        fresh).1) = true := by
  decide +kernel

/-! ### The hypotheses are met -/

open Sample in
/-- A packet with two answers, the first of which cannot be stored: the second one is. -/
example : (∀ k, (fun k => if k = 0 then Store.refused else .done) k ≠ .nameless) ∧
    (lacking (.recv (at_ 101) { ptrMsg 120 with an := (ptrMsg 120).an ++ [⟨nm 99, 12, 1, 120, [], .name (nm 98)⟩] } other
      fun k => if k = 0 then .refused else .done) fresh).c.listed (nm 97) 12 = [] ∧
    ((lacking (.recv (at_ 101) { ptrMsg 120 with an := (ptrMsg 120).an ++ [⟨nm 99, 12, 1, 120, [], .name (nm 98)⟩] } other
      fun k => if k = 0 then .refused else .done) fresh).c.listed (nm 99) 12).length = 1 := by
  refine ⟨fun k => ?_, ?_⟩
  · show (if k = 0 then Store.refused else .done) ≠ .nameless
    split <;> nofun
  · decide +kernel

end Mdns
