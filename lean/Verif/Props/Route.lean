import Verif.Model.Route

/-!
# C95: the default interface of `mquery`
-/

namespace Mdns.Route

open Mdns.CLib

/-! ### Specification -/

/-- A line of the table for a default route of an interface that is up. -/
def Line.default (l : Line) : Bool := decide (10 ≤ l.rc) && l.flags % 2 == 1 && l.dest == 0 && l.mask == 0

/-- Whether an interface is a tunnel. -/
def Line.tunnel (l : Line) : Bool := l.name.take 3 == tun

/-- The interface a user wants: that of the first default route that is not a tunnel, or else of the first one. -/
def wanted (ls : List Line) : Option Bytes :=
  ((ls.find? fun l => l.default && !l.tunnel).or (ls.find? Line.default)).map (·.name)

theorem scan_eq (ls : List Line) : scan [] 16 ls = match ls.find? Line.default with
    | some l => (strlcpy l.name 16, true)
    | none => ([], false) := by
  induction ls with
  | nil => rfl
  | cons l ls ih =>
    rw [scan, List.find?_cons]
    by_cases h1 : l.rc < 10 ∨ l.flags % 2 = 0
    · have : l.default = false := by
        rcases h1 with h1 | h1
        · simp [Line.default, Nat.not_le.mpr h1]
        · simp [Line.default, h1]
      rw [if_pos h1, this, ih]
    · rw [if_neg h1]
      by_cases h2 : l.dest ≠ 0 ∨ l.mask ≠ 0
      · have : l.default = false := by
          rcases h2 with h2 | h2 <;> simp [Line.default, h2]
        rw [if_pos h2, this, ih]
      · have : l.default = true := by
          have a : 10 ≤ l.rc := by omega
          have b : l.flags % 2 = 1 := by omega
          have c : l.dest = 0 := by omega
          have d : l.mask = 0 := by omega
          simp [Line.default, a, b, c, d]
        rw [if_neg h2, if_pos (.inl rfl), this]

/-! ### Theorems -/

/-- C95, given: the interface named with `-i` is used, whatever the routes are. -/
theorem C95_given (i : Bytes) (table : Option (List Line)) : chosen (some i) table = some i := rfl

/-- C95, the first default route: it is the one of the first default route that is up, if there is one.  Missing: tunnels are not skipped. -/
theorem C95_first_partial (ls : List Line) (hn : ∀ l ∈ ls, l.name.length < 16) :
    chosen none (some ls) = (ls.find? Line.default).map (·.name) := by
  unfold chosen getifname
  dsimp only
  rw [scan_eq]
  cases h : ls.find? Line.default with
  | none => rfl
  | some l =>
    have := hn l (List.mem_of_find?_eq_some h)
    show some (l.name.take 15) = some l.name
    rw [List.take_of_length_le (by omega)]

/-- C95, without tunnels: if no default route goes through a tunnel, the interface is the one wanted.  Missing: tunnels. -/
theorem C95_wanted_partial (ls : List Line) (hn : ∀ l ∈ ls, l.name.length < 16) (ht : ∀ l ∈ ls, l.default = true → l.tunnel = false) :
    chosen none (some ls) = wanted ls := by
  rw [C95_first_partial ls hn]
  have : ls.find? (fun l => l.default && !l.tunnel) = ls.find? Line.default := by
    clear hn
    induction ls with
    | nil => rfl
    | cons l ls ih =>
      rw [List.find?_cons, List.find?_cons, ih fun l m => ht l (by simp [m])]
      cases h : l.default with
      | false => simp
      | true => simp [ht l (by simp) h]
  unfold wanted
  rw [this]
  cases ls.find? Line.default <;> rfl

/-- `t`, `u`, `n`, `0`. -/
def Sample.tun0 : Line := ⟨11, [0x74, 0x75, 0x6E, 0x30], 0, 3, 0⟩
/-- `e`, `t`, `h`, `0`. -/
def Sample.eth0 : Line := ⟨11, [0x65, 0x74, 0x68, 0x30], 0, 3, 0⟩
/-- Not a default route. -/
def Sample.lan : Line := ⟨11, [0x65, 0x74, 0x68, 0x31], 0x0A, 1, 0xFF⟩

/-- C95: with a tunnel in front of it the LAN interface is not found, although the comment of the function says that tunnels are skipped
(`src/mquery.c:150`: the search ends with the first default route, so that a name found before is never looked at). -/
theorem C95_tunnel_counterexample : ∃ ls, (∀ l ∈ ls, l.name.length < 16) ∧ chosen none (some ls) = some Sample.tun0.name ∧
    wanted ls = some Sample.eth0.name :=
  ⟨[Sample.tun0, Sample.eth0], by decide, by decide, by decide⟩

/-- A route that is not a default one is skipped. -/
example : chosen none (some [Sample.lan, Sample.eth0, Sample.lan]) = wanted [Sample.lan, Sample.eth0, Sample.lan] ∧
    wanted [Sample.lan, Sample.eth0, Sample.lan] = some Sample.eth0.name :=
  ⟨C95_wanted_partial _ (by decide) (by decide), by decide⟩

end Mdns.Route
