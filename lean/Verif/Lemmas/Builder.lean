import Verif.Model.Builder
import Verif.Lemmas.Util

/-! Size and prefix lemmas about the builder. -/

namespace Mdns

theorem mkLabel_spec (name : Bytes) : ∀ acc cur lab, mkLabel acc cur name = some lab →
    acc.length + 1 + cur.length ≤ 255 →
    1 ≤ lab.length ∧ lab.length ≤ 256 ∧ lab.getD (lab.length - 1) 0 = 0 := by
  have hfin : ∀ acc cur lab, mkLabel.finish acc cur = some lab →
      acc.length + 1 + cur.length ≤ 255 →
      1 ≤ lab.length ∧ lab.length ≤ 256 ∧ lab.getD (lab.length - 1) 0 = 0 := by
    intro acc cur lab h hl
    unfold mkLabel.finish at h
    split at h
    · cases h; simp
    · cases h
      refine ⟨by simp only [List.length_append, List.length_cons, List.length_nil]; omega,
        by simp only [List.length_append, List.length_cons, List.length_nil]; omega, ?_⟩
      simp [List.getD_eq_getElem?_getD]
  induction name with
  | nil => intro acc cur lab h hl; exact hfin acc cur lab h hl
  | cons c rest ih =>
    intro acc cur lab h hl
    unfold mkLabel at h
    split at h
    · split at h
      · exact hfin acc cur lab h hl
      · split at h
        · simp at h
        · exact ih _ _ _ h (by simp only [List.length_append, List.length_cons, List.length_nil]; omega)
    · split at h
      · simp at h
      · exact ih _ _ _ h (by simp only [List.length_append, List.length_cons, List.length_nil]; omega)

theorem compressF_length (lab pkt : Bytes) (labels : List Nat)
    (hl : lab.getD (lab.length - 1) 0 = 0) : ∀ fuel x,
    (compressF lab pkt labels fuel x).length ≤ lab.length := by
  intro fuel
  induction fuel with
  | zero => intro x; exact Nat.le_refl _
  | succ fuel ih =>
    intro x
    unfold compressF
    simp only
    split
    · exact Nat.le_refl _
    · rename_i hb
      split
      · simp only [List.length_append, List.length_take, List.length_cons, List.length_nil]
        have : x < lab.length - 1 := by
          by_cases h : x < lab.length - 1
          · exact h
          · exfalso
            apply hb
            by_cases h' : x = lab.length - 1
            · rw [h']; exact hl
            · rw [List.getD_eq_getElem?_getD, List.getElem?_eq_none (by omega)]; rfl
        omega
      · split
        · exact Nat.le_refl _
        · exact ih _

theorem host_length (m : Builder) (name : Bytes) :
    ((host m name).1.pkt = m.pkt ∧ (host m name).2 = 0) ∨
    ∃ out, (host m name).1.pkt = m.pkt ++ out ∧ (host m name).2 = out.length ∧ out.length ≤ 256 := by
  unfold host
  split
  · exact .inl ⟨rfl, rfl⟩
  · rename_i lab h
    obtain ⟨_, h2, h3⟩ := mkLabel_spec name [] [] lab h (by simp)
    exact .inr ⟨_, rfl, rfl, Nat.le_trans (compressF_length lab m.pkt m.labels h3 _ _) h2⟩

/-- Uniform version. -/
theorem host_pkt (m : Builder) (name : Bytes) :
    ∃ out, (host m name).1.pkt = m.pkt ++ out ∧ (host m name).2 = out.length ∧ out.length ≤ 256 := by
  rcases host_length m name with ⟨h1, h2⟩ | h
  · exact ⟨[], by simpa using h1, h2, by simp⟩
  · exact h

theorem host_fields (m : Builder) (name : Bytes) :
    (host m name).1.qd = m.qd ∧ (host m name).1.an = m.an ∧ (host m name).1.ns = m.ns ∧
    (host m name).1.ar = m.ar ∧ (host m name).1.id = m.id ∧ (host m name).1.header = m.header := by
  unfold host
  split <;> simp

theorem patchShort_append (pre mid post : Bytes) (v : Nat) (h : mid.length = 2) :
    patchShort (pre ++ mid ++ post) pre.length v = pre ++ putShort v ++ post := by
  unfold patchShort
  have h1 : (pre ++ mid ++ post).take pre.length = pre := by
    rw [List.append_assoc, List.take_left]
  have h2 : (pre ++ mid ++ post).drop (pre.length + 2) = post := by
    have : pre.length + 2 = (pre ++ mid).length := by simp [h]
    rw [this, List.drop_left]
  rw [h1, h2]

theorem rdataName_pkt (m : Builder) (name : Bytes) :
    ∃ out, (host (m.put [0, 0]) name).1.pkt = m.pkt ++ [0, 0] ++ out ∧ out.length ≤ 256 ∧
      (rdataName m name).pkt = m.pkt ++ putShort out.length ++ out := by
  obtain ⟨out, h1, h2, h3⟩ := host_pkt (m.put [0, 0]) name
  refine ⟨out, h1, h3, ?_⟩
  simp only [rdataName]
  rw [h1, h2]
  exact patchShort_append _ _ _ _ rfl

theorem rdataSrv_pkt (m : Builder) (p w o : Nat) (name : Bytes) :
    ∃ out, (host ((((m.put [0, 0]).put (putShort p)).put (putShort w)).put (putShort o)) name).1.pkt
        = m.pkt ++ [0, 0] ++ (putShort p ++ putShort w ++ putShort o ++ out) ∧ out.length ≤ 256 ∧
      (rdataSrv m p w o name).pkt
        = m.pkt ++ putShort (out.length + 6) ++ (putShort p ++ putShort w ++ putShort o ++ out) := by
  obtain ⟨out, h1, h2, h3⟩ := host_pkt ((((m.put [0, 0]).put (putShort p)).put (putShort w)).put (putShort o)) name
  have h1' : (host ((((m.put [0, 0]).put (putShort p)).put (putShort w)).put (putShort o)) name).1.pkt
        = m.pkt ++ [0, 0] ++ (putShort p ++ putShort w ++ putShort o ++ out) := by
    rw [h1]; simp [Builder.put]
  refine ⟨out, h1', h3, ?_⟩
  simp only [rdataSrv]
  rw [h1', h2]
  exact patchShort_append _ _ _ _ rfl

end Mdns
