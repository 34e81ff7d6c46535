import Verif.Model.IfaceAlloc
import Verif.Props.Process

/-!
# C117: new interfaces when memory runs out
-/

namespace Mdns.Iface

/-! ### Specification -/

/-- The interfaces found for the first time, each once: those that have an address that counts and are not in the
table. -/
structure New (ifname : Option Bytes) (l : List Ifa) (t : List Iface) (ns : List Bytes) : Prop where
  once : ns.Nodup
  mem : ∀ n, n ∈ ns ↔ n ∉ t.map (·.name) ∧ ∃ a, Listed ifname l n a

/-! ### Proofs -/

/-- The interfaces found for the first time, in the order listed. -/
def news (ifname : Option Bytes) : List Ifa → List Bytes → List Bytes
  | [], _ => []
  | e :: l, k =>
    if (usable ifname e).isSome ∧ e.name ∉ k then e.name :: news ifname l (k ++ [e.name]) else news ifname l k

theorem news_spec (ifname : Option Bytes) (l : List Ifa) : ∀ k,
    (news ifname l k).Nodup ∧ ∀ n, n ∈ news ifname l k ↔ n ∉ k ∧ ∃ e ∈ l, e.name = n ∧ (usable ifname e).isSome := by
  induction l with
  | nil => intro k; simp [news]
  | cons e l ih =>
    intro k
    unfold news
    split
    · rename_i h
      obtain ⟨h1, h2⟩ := ih (k ++ [e.name])
      refine ⟨List.nodup_cons.2 ⟨fun m => ?_, h1⟩, fun n => ?_⟩
      · exact ((h2 _).1 m).1 (by simp)
      · rw [List.mem_cons, h2]
        constructor
        · rintro (rfl | ⟨hn, e', m, he⟩)
          · exact ⟨h.2, e, .head _, rfl, h.1⟩
          · exact ⟨fun m => hn (List.mem_append_left _ m), e', .tail _ m, he⟩
        · rintro ⟨hn, e', m, he⟩
          by_cases hne : n = e.name
          · exact .inl hne
          · refine .inr ⟨?_, ?_⟩
            · simp only [List.mem_append, List.mem_singleton]
              exact fun h => h.elim hn hne
            · rcases List.mem_cons.1 m with rfl | m
              · exact absurd he.1.symm hne
              · exact ⟨e', m, he⟩
    · rename_i h
      obtain ⟨h1, h2⟩ := ih k
      refine ⟨h1, fun n => ?_⟩
      rw [h2]
      constructor
      · rintro ⟨hn, e', m, he⟩
        exact ⟨hn, e', .tail _ m, he⟩
      · rintro ⟨hn, e', m, he⟩
        rcases List.mem_cons.1 m with rfl | m
        · exact absurd ⟨he.2, he.1 ▸ hn⟩ h
        · exact ⟨hn, e', m, he⟩

theorem news_new (ifname : Option Bytes) (l : List Ifa) (t : List Iface) :
    New ifname l t (news ifname l (t.map (·.name))) := by
  obtain ⟨h1, h2⟩ := news_spec ifname l (t.map (·.name))
  refine ⟨h1, fun n => ?_⟩
  rw [h2]
  refine and_congr Iff.rfl ⟨?_, ?_⟩
  · rintro ⟨e, m, hn, hu⟩
    obtain ⟨a, ha⟩ := Option.isSome_iff_exists.1 hu
    refine ⟨a, (mem_cands ifname l n a).1 (List.mem_filterMap.2 ⟨e, m, ?_⟩)⟩
    rw [if_pos hn, ha]
  · rintro ⟨a, ha⟩
    obtain ⟨e, m, h⟩ := List.mem_filterMap.1 ((mem_cands ifname l n a).2 ha)
    split at h
    · rename_i hn
      exact ⟨e, m, hn, by rw [h]; rfl⟩
    · cases h

theorem New.length {ifname : Option Bytes} {l : List Ifa} {t : List Iface} {ns : List Bytes} (h : New ifname l t ns) :
    (news ifname l (t.map (·.name))).length = ns.length := by
  have h' := news_new ifname l t
  exact ((List.perm_ext_iff_of_nodup h'.once h.once).2 fun n => (h'.mem n).trans (h.mem n).symm).length_eq

theorem visitsM_spec (ifname : Option Bytes) (mem : Nat → Bool) (l : List Ifa) : ∀ (t : List Iface) (n : Nat),
    ((∀ k < (news ifname l (t.map (·.name))).length, mem (n + k) = true) →
      visitsM ifname mem l ⟨t, n⟩ = some ⟨l.foldl (visit ifname) t, n + (news ifname l (t.map (·.name))).length⟩) ∧
    ((∃ k < (news ifname l (t.map (·.name))).length, mem (n + k) = false) → visitsM ifname mem l ⟨t, n⟩ = none) := by
  induction l with
  | nil => intro t n; simp [news, visitsM]
  | cons e l ih =>
    intro t n
    unfold visitsM visitM news
    rw [List.foldl_cons]
    cases hu : usable ifname e with
    | none =>
      have hv : visit ifname t e = t := by unfold visit; rw [hu]
      rw [hv]
      simpa using ih t n
    | some a =>
      dsimp only
      cases hf : find t e.name with
      | none =>
        have hk : e.name ∉ t.map (·.name) := (find_none_iff t e.name).1 hf
        have hv : visit ifname t e = t ++ [take { name := e.name } a] := by unfold visit; rw [hu]; dsimp only; rw [hf]
        have hm : (t ++ [take { name := e.name } a]).map (·.name) = t.map (·.name) ++ [e.name] := by simp [take_name]
        rw [if_pos ⟨rfl, hk⟩, hv]
        have ih := ih (t ++ [take { name := e.name } a]) (n + 1)
        rw [hm] at ih
        cases h0 : mem n with
        | false =>
          refine ⟨fun h => ?_, fun _ => rfl⟩
          have := h 0 (by simp)
          rw [Nat.add_zero, h0] at this
          cases this
        | true =>
          rw [if_pos rfl]
          dsimp only
          constructor
          · intro h
            rw [ih.1 fun k hk => ?_]
            · rw [List.length_cons, Nat.add_right_comm, Nat.add_assoc n]
            · have := h (k + 1) (by rw [List.length_cons]; omega)
              rwa [show n + 1 + k = n + (k + 1) by omega]
          · rintro ⟨k, hk, h⟩
            cases k with
            | zero => rw [Nat.add_zero, h0] at h; cases h
            | succ k =>
              refine ih.2 ⟨k, by rw [List.length_cons] at hk; omega, ?_⟩
              rwa [show n + 1 + k = n + (k + 1) by omega]
      | some i =>
        have hk : e.name ∈ t.map (·.name) := by
          refine Classical.byContradiction fun h => ?_
          rw [(find_none_iff t e.name).2 h] at hf
          cases hf
        have hm : (modify (fun i => take { i with unused := false } a) e.name t).map (·.name) = t.map (·.name) :=
          modify_names (fun i => take { i with unused := false } a) (fun i => take_name _ _) _ _
        have hv : visit ifname t e = modify (fun i => take { i with unused := false } a) e.name t := by
          unfold visit; rw [hu]; dsimp only; rw [hf]
        rw [if_neg fun h => h.2 hk, hv]
        have ih := ih (modify (fun i => take { i with unused := false } a) e.name t) n
        rw [hm] at ih
        exact ih

theorem scanM_spec (ifname : Option Bytes) (mem : Nat → Bool) (l : List Ifa) (t : List Iface) (ns : List Bytes)
    (hn : New ifname l t ns) :
    ((∀ k < ns.length, mem k = true) → scanM ifname mem (some l) t = some ⟨scan ifname (some l) t, ns.length⟩) ∧
    ((∃ k < ns.length, mem k = false) → scanM ifname mem (some l) t = none) := by
  have h := visitsM_spec ifname mem l (t.map mark1) 0
  rw [show (t.map mark1).map (·.name) = t.map (·.name) by simp [mark1], hn.length] at h
  simp only [Nat.zero_add] at h
  unfold scanM scan
  exact ⟨fun hk => by simp only [h.1 hk], fun hk => by simp only [h.2 hk]⟩

/-- **C117 (exact).** A scan asks for memory exactly once for each interface found for the first time.  If it gets it each
time, the table is as with enough memory; if not, the process ends. -/
theorem C117_exact (ifname : Option Bytes) (mem : Nat → Bool) (l : List Ifa) (t : List Iface) (ns : List Bytes)
    (hn : New ifname l t ns) :
    (scanM ifname mem (some l) t = some ⟨scan ifname (some l) t, ns.length⟩ ∧ ∀ k < ns.length, mem k = true) ∨
    (scanM ifname mem (some l) t = none ∧ ∃ k < ns.length, mem k = false) := by
  have h := scanM_spec ifname mem l t ns hn
  by_cases hk : ∀ k < ns.length, mem k = true
  · exact .inl ⟨h.1 hk, hk⟩
  · have hk : ∃ k < ns.length, mem k = false := by
      refine Classical.byContradiction fun hx => hk fun k lt => ?_
      cases hm : mem k with
      | true => rfl
      | false => exact absurd ⟨k, lt, hm⟩ hx
    exact .inr ⟨h.2 hk, hk⟩

/-- There is always such a list. -/
theorem C117_new_exists (ifname : Option Bytes) (l : List Ifa) (t : List Iface) : ∃ ns, New ifname l t ns :=
  ⟨_, news_new ifname l t⟩

/-- **C117 (known).** While all interfaces found are known, or none can be found, a scan needs no memory: the daemon does
not end, and notices all that it would notice otherwise. -/
theorem C117_known_partial (ifname : Option Bytes) (mem : Nat → Bool) (l : Option (List Ifa)) (t : List Iface)
    (hl : ∀ l', l = some l' → ∀ n a, Listed ifname l' n a → n ∈ t.map (·.name)) :
    scanM ifname mem l t = some ⟨scan ifname l t, 0⟩ := by
  cases l with
  | none => rfl
  | some l =>
    refine (scanM_spec ifname mem l t [] ⟨List.nodup_nil, fun n => ?_⟩).1 (fun k hk => by cases hk)
    constructor
    · exact fun h => by cases h
    · rintro ⟨hn, a, ha⟩
      exact absurd (hl l rfl n a ha) hn

/-! ### Samples -/

/-- A second interface. -/
def sampleTwo : List Ifa := sampleList ++ [⟨[0x77], false, true, true, some (.v4 0x0A000101)⟩]

example : news none sampleTwo [] = [[0x65], [0x77]] ∧ news none sampleTwo [[0x65]] = [[0x77]] := by decide +kernel

/-- Memory for one of two interfaces. -/
example : scanM none (· == 0) (some sampleTwo) [] = none ∧
    scanM none (· == 0) (some sampleTwo) (sysInit none (some sampleList) []) =
      some ⟨scan none (some sampleTwo) (sysInit none (some sampleList) []), 1⟩ ∧
    scanM none (fun _ => false) (some sampleList) (sysInit none (some sampleList) []) =
      some ⟨scan none (some sampleList) (sysInit none (some sampleList) []), 0⟩ := by decide +kernel

/-- The hypothesis of `C117_known_partial` holds for the sample when its interface is known. -/
example : ∀ l', some sampleList = some l' → ∀ n a, Listed none l' n a →
    n ∈ (sysInit none (some sampleList) []).map (·.name) := by
  rintro l' ⟨⟩ n a ⟨e, he, hn, hlo, -⟩
  have : (sysInit none (some sampleList) []).map (·.name) = [[0x65]] := by decide +kernel
  rw [this]
  simp only [sampleList, List.mem_cons, List.not_mem_nil, or_false] at he
  rcases he with rfl | rfl | rfl | rfl | rfl | rfl <;> simp_all

/-- With no memory for a second interface the daemon ends, although the first is known and unchanged. -/
theorem C117_end_counterexample : ∃ (mem : Nat → Bool) (l : List Ifa) (t : List Iface) (i : Iface), Reach t ∧ i ∈ t ∧
    i.conf = some (i.in4, i.in6) ∧ i ∈ scan none (some l) t ∧ scanM none mem (some l) t = none := by
  refine ⟨fun _ => false, sampleTwo, reload none (some sampleList) (reload none (some sampleList) []),
    { name := [0x65], in4 := 0x0A000001, in6 := 0x20010DB8000000000000000000000001, old4 := 0x0A000001,
      old6 := 0x20010DB8000000000000000000000001,
      conf := some (0x0A000001, 0x20010DB8000000000000000000000001) }, ?_, ?_, rfl, ?_, ?_⟩
  · exact .reload _ _ (.reload _ _ .start sample_proper) sample_proper
  · decide +kernel
  · decide +kernel
  · decide +kernel

end Mdns.Iface

namespace Mdns.Proc

/-- The daemon serves one interface, with socket 3 and context 0 for IPv4; then a second one is found, for which there is
no memory, or no socket.  The daemon ends at once; the context of the first has not been shut down and freed, so that
nothing it published is withdrawn. -/
theorem C117_goodbye_counterexample (e : Env) (he : e = { fine with mem4 := (· != [0x77]) } ∨
      e = { fine with sock4 := fun n => if n = [0x77] then .none else .bound }) :
    held (upTo none fine (some Iface.sampleList) .bound [] {}) = [([0x65], some 3, some 4, some 0, some 1)] ∧
    ∃ s, main none fine (some Iface.sampleList) .bound
        [.work [(e, some twoList)] (fun _ => true) (fun _ => true)] {} = .exit s ∧ 0 ∈ s.ctxs ∧ 3 ∈ s.fds := by
  refine ⟨by decide +kernel, ?_⟩
  rcases he with rfl | rfl
  · exact ⟨⟨[5, 4, 3], [1, 0], 2⟩, by decide +kernel, by decide, by decide⟩
  · exact ⟨⟨[5, 4, 3], [2, 1, 0], 3⟩, by decide +kernel, by decide, by decide⟩

end Mdns.Proc
