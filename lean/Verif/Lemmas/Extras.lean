import Verif.Lemmas.OutMsg
import Verif.Lemmas.Size

/-!
# Additional records: all of them, as far as there is room
-/

namespace Mdns

open M

/-- The record is in the packet, or was before, or there is no room for it. -/
def Served (c : Core) (s : List Nat) (m : Out) (r : Nat) : Prop :=
  r ∈ s ∨ (.ar, r) ∈ m.tags ∨ ∀ x, c.recs r = some x → c.frame ≤ m.len + rrLen x.rr

theorem AddL.grows {c : Core} {J : Nat → Prop} {m m' : Out} {s s' : List Nat} (n : AddL c J m s m' s') :
    m.len ≤ m'.len ∧ (∀ t ∈ m.tags, t ∈ m'.tags) ∧ ∀ r ∈ s', r ∈ s ∨ (.ar, r) ∈ m'.tags := by
  induction n with
  | nil => exact ⟨Nat.le_refl _, fun _ h => h, fun r h => .inl h⟩
  | @add m1 _ s1 r x _ _ hx hf _ ih =>
    obtain ⟨h1, h2, h3⟩ := ih
    refine ⟨Nat.le_trans h1 (Out.put_grows ..), fun t h => ?_, fun q h => ?_⟩
    · rw [put_tags]
      exact List.mem_append_left _ (h2 t h)
    · rw [put_tags]
      rcases mem_answeredAdd h with h | rfl
      · rcases h3 q h with h | h
        · exact .inl h
        · exact .inr (List.mem_append_left _ h)
      · simp

/-- Behind more additional records. -/
theorem Served.later {c : Core} {J : Nat → Prop} {s0 s s' : List Nat} {m m' : Out} {r : Nat} (h : Served c s0 m r)
    (n : AddL c J m s m' s') : Served c s0 m' r := by
  obtain ⟨h1, h2, _⟩ := n.grows
  rcases h with h | h | h
  · exact .inl h
  · exact .inr (.inl (h2 _ h))
  · exact .inr (.inr fun x hx => Nat.le_trans (h x hx) (Nat.add_le_add_right h1 _))

/-- After other additional records. -/
theorem Served.earlier {c : Core} {J : Nat → Prop} {s0 s1 : List Nat} {m0 m1 m : Out} {r : Nat} (h : Served c s1 m r)
    (n : AddL c J m0 s0 m1 s1) (n' : ∀ t ∈ m1.tags, t ∈ m.tags) : Served c s0 m r := by
  rcases h with h | h
  · rcases n.grows.2.2 r h with h | h
    · exact .inl h
    · exact .inr (.inl (n' _ h))
  · exact .inr h

theorem ar_full {c : Core} {l l' : Lists} {m m' : Out} {s s' : List Nat} {r : Nat} {x : Rec} {c' : Core}
    (hx : c.recs r = some x) (e : ar m s r ⟨c, l⟩ = .ok ((m', s'), ⟨c', l'⟩)) : Served c s m' r := by
  unfold ar at e
  split at e
  · rename_i h
    exact .inl h
  · rw [M.bind_ok core_ok, M.bind_ok (getRec_ok hx)] at e
    split at e
    · rename_i h
      cases e
      refine .inr (.inr fun y hy => ?_)
      rw [hx] at hy
      cases hy
      exact h
    · cases e
      refine .inr (.inl ?_)
      rw [put_tags]
      simp

theorem arAddrLoop_full {c : Core} {l : Lists} {host : Bytes} : ∀ (rs : List Nat) (m : Out) (s : List Nat) {m' : Out}
    {s' : List Nat}, (∀ r ∈ rs, ∃ x, c.recs r = some x) → arAddrLoop host rs m s ⟨c, l⟩ = .ok ((m', s'), ⟨c, l⟩) →
    ∀ r ∈ rs, IsAddr c host r → Served c s m' r
  | [], m, s, m', s', _, e => fun r h => by cases h
  | r :: rs, m, s, m', s', h, e => by
    obtain ⟨x, hx⟩ := h r (by simp)
    have h' : ∀ r ∈ rs, ∃ x, c.recs r = some x := fun r' m' => h r' (by simp [m'])
    unfold arAddrLoop at e
    rw [M.bind_ok (getRec_ok hx)] at e
    split at e
    · rename_i hh
      obtain ⟨m1, s1, e1, a1⟩ := ar_ok (l := l) (J := IsAddr c host) (m := m) (s := s) hx ⟨x, hx, hh⟩
      obtain ⟨m2, s2, e2, a2⟩ := arAddrLoop_ok (host := host) (l := l) rs m1 s1 h'
      rw [M.bind_ok e1] at e
      dsimp only at e
      have := e2.symm.trans e
      cases this
      intro q mq ha
      rcases List.mem_cons.mp mq with rfl | mq
      · exact (ar_full hx e1).later a2
      · exact (arAddrLoop_full rs m1 s1 h' e q mq ha).earlier a1 a2.grows.2.1
    · rename_i hh
      intro q mq ha
      rcases List.mem_cons.mp mq with rfl | mq
      · obtain ⟨y, hy, h1⟩ := ha
        rw [hx] at hy
        cases hy
        exact absurd h1 hh
      · exact arAddrLoop_full rs m s h' e q mq ha

theorem arAddr_full {c : Core} {l : Lists} (h : RInv c l) {host : Bytes} {m m' : Out} {s s' : List Nat}
    (e : arAddr (some host) m s ⟨c, l⟩ = .ok ((m', s'), ⟨c, l⟩)) {r : Nat} (ha : IsAddr c host r) : Served c s m' r := by
  refine arAddrLoop_full _ m s (h.pubrec (bucket host sprime)) (show arAddrLoop host _ m s ⟨c, l⟩ = _ from e) r ?_ ha
  obtain ⟨x, hx, rfl, _⟩ := ha
  exact h.mem r x hx

theorem additionalLoop_full {c : Core} {l : Lists} (h : RInv c l) {name : Bytes} :
    ∀ (rs : List Nat) (m : Out) (s : List Nat) {m' : Out} {s' : List Nat}, (∀ r ∈ rs, ∃ x, c.recs r = some x) →
    additionalLoop name rs m s ⟨c, l⟩ = .ok ((m', s'), ⟨c, l⟩) → ∀ r1 ∈ rs, ∀ x1, c.recs r1 = some x1 → x1.rr.name = name →
      ((x1.rr.type = 33 ∨ x1.rr.type = 16) → Served c s m' r1) ∧
      (x1.rr.type = 33 → ∀ hst, x1.rr.rdname = some hst → ∀ r, IsAddr c hst r → Served c s m' r)
  | [], m, s, m', s', _, e => fun r h => by cases h
  | r :: rs, m, s, m', s', hr, e => by
    obtain ⟨x, hx⟩ := hr r (by simp)
    have hr' : ∀ r ∈ rs, ∃ x, c.recs r = some x := fun r' m' => hr r' (by simp [m'])
    unfold additionalLoop at e
    rw [M.bind_ok (getRec_ok hx)] at e
    split at e
    · rename_i hh
      obtain ⟨m1, s1, e1, a1⟩ := ar_ok (l := l) (J := ExtraPtr c name) (m := m) (s := s) hx
        (.inl ⟨x, hx, hh.1, .inl hh.2⟩)
      obtain ⟨m2, s2, e2, a2⟩ := arAddr_ok h x.rr.rdname m1 s1
      obtain ⟨m3, s3, e3, a3⟩ := additionalLoop_ok h (name := name) rs m2 s2 hr'
      rw [M.bind_ok e1] at e
      dsimp only at e
      rw [M.bind_ok e2] at e
      dsimp only at e
      cases e3.symm.trans e
      intro r1 m1' x1 hx1 hn1
      rcases List.mem_cons.mp m1' with rfl | m1'
      · rw [hx] at hx1
        cases hx1
        refine ⟨fun _ => ((ar_full hx e1).later a2).later a3, fun _ hst eh q hq => ?_⟩
        rw [eh] at e2
        exact ((arAddr_full h e2 hq).earlier a1 a2.grows.2.1).later a3
      · obtain ⟨k1, k2⟩ := additionalLoop_full h rs m2 s2 hr' e r1 m1' x1 hx1 hn1
        exact ⟨fun ht => ((k1 ht).earlier a2 a3.grows.2.1).earlier a1 fun t h => a3.grows.2.1 _ (a2.grows.2.1 _ h), fun ht hst eh q hq =>
          ((k2 ht hst eh q hq).earlier a2 a3.grows.2.1).earlier a1 fun t h => a3.grows.2.1 _ (a2.grows.2.1 _ h)⟩
    · rename_i hh1
      split at e
      · rename_i hh
        obtain ⟨m1, s1, e1, a1⟩ := ar_ok (l := l) (J := ExtraPtr c name) (m := m) (s := s) hx
          (.inl ⟨x, hx, hh.1, .inr hh.2⟩)
        obtain ⟨m3, s3, e3, a3⟩ := additionalLoop_ok h (name := name) rs m1 s1 hr'
        rw [M.bind_ok e1] at e
        dsimp only at e
        cases e3.symm.trans e
        intro r1 m1' x1 hx1 hn1
        rcases List.mem_cons.mp m1' with rfl | m1'
        · rw [hx] at hx1
          cases hx1
          exact ⟨fun _ => (ar_full hx e1).later a3, fun ht => absurd ⟨hh.1, ht⟩ hh1⟩
        · obtain ⟨k1, k2⟩ := additionalLoop_full h rs m1 s1 hr' e r1 m1' x1 hx1 hn1
          exact ⟨fun ht => (k1 ht).earlier a1 a3.grows.2.1, fun ht hst eh q hq => (k2 ht hst eh q hq).earlier a1 a3.grows.2.1⟩
      · rename_i hh2
        intro r1 m1' x1 hx1 hn1
        rcases List.mem_cons.mp m1' with rfl | m1'
        · rw [hx] at hx1
          cases hx1
          exact ⟨fun ht => (ht.elim (fun h => absurd ⟨hn1, h⟩ hh1) (fun h => absurd ⟨hn1, h⟩ hh2)),
            fun ht => absurd ⟨hn1, ht⟩ hh1⟩
        · exact additionalLoop_full h rs m s hr' e r1 m1' x1 hx1 hn1

theorem additional_full {c : Core} {l : Lists} (h : RInv c l) {r0 : Nat} {m m' : Out} {s s' : List Nat}
    (e : additional m s r0 ⟨c, l⟩ = .ok ((m', s'), ⟨c, l⟩)) {r : Nat} (hr : Extra c r0 r) : Served c s m' r := by
  obtain ⟨x0, hx0, hr⟩ := hr
  unfold additional at e
  rw [M.bind_ok (getRec_ok hx0)] at e
  rcases hr with ⟨ht, hst, eh, ha⟩ | ⟨ht, hd, n, en, hr⟩
  · rw [if_pos ht, eh] at e
    exact arAddr_full h e ha
  · rw [if_neg (by omega), en] at e
    dsimp only at e
    rw [if_neg (by simp [ht, hd]), M.bind_ok core_ok] at e
    have k := additionalLoop_full h (name := n) _ m s (h.pubrec (bucket n sprime)) e
    rcases hr with ⟨x, hx, hn, ht⟩ | ⟨r1, x1, hst, hx1, hn, ht, eh, ha⟩
    · exact (k r (hn ▸ h.mem r x hx) x hx hn).1 ht
    · exact (k r1 (hn ▸ h.mem r1 x1 hx1) x1 hx1 hn).2 ht hst eh r ha

theorem additionals_full {c : Core} {l : Lists} (h : RInv c l) : ∀ (rs : List Nat) (m : Out) (s : List Nat) {m' : Out}
    {s' : List Nat}, (∀ r ∈ rs, ∃ x, c.recs r = some x) → additionals rs m s ⟨c, l⟩ = .ok ((m', s'), ⟨c, l⟩) →
    ∀ r0 ∈ rs, ∀ r, Extra c r0 r → Served c s m' r
  | [], m, s, m', s', _, e => fun r h => by cases h
  | r1 :: rs, m, s, m', s', hr, e => by
    obtain ⟨x, hx⟩ := hr r1 (by simp)
    have hr' : ∀ r ∈ rs, ∃ x, c.recs r = some x := fun r' m' => hr r' (by simp [m'])
    unfold additionals at e
    obtain ⟨m1, s1, e1, a1⟩ := additional_ok h hx m s
    obtain ⟨m2, s2, e2, a2⟩ := additionals_ok h rs m1 s1 hr'
    rw [M.bind_ok e1] at e
    dsimp only at e
    cases e2.symm.trans e
    intro r0 m0 r hj
    rcases List.mem_cons.mp m0 with rfl | m0
    · exact (additional_full h e1 hj).later a2
    · exact (additionals_full h rs m1 s1 hr' e r0 m0 r hj).earlier a1 a2.grows.2.1

end Mdns
