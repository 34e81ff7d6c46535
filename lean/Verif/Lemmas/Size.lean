import Verif.Model.Daemon
import Verif.Props.Builder

/-!
# The size of packets
-/

namespace Mdns

/-! ### Names -/

theorem mkLabel_length (name : Bytes) : ∀ acc cur lab, mkLabel acc cur name = some lab →
    lab.length ≤ acc.length + cur.length + name.length + 2 := by
  have hfin : ∀ acc cur lab, mkLabel.finish acc cur = some lab → lab.length ≤ acc.length + cur.length + 2 := by
    intro acc cur lab h
    unfold mkLabel.finish at h
    split at h
    · cases h; simp
    · cases h
      simp only [List.length_append, List.length_cons, List.length_nil]; omega
  induction name with
  | nil =>
    intro acc cur lab h
    have := hfin acc cur lab h
    simp only [List.length_nil]
    omega
  | cons c rest ih =>
    intro acc cur lab h
    unfold mkLabel at h
    rw [List.length_cons]
    split at h
    · split at h
      · have := hfin acc cur lab h
        omega
      · split at h
        · cases h
        · have := ih _ _ _ h
          simp only [List.length_append, List.length_cons, List.length_nil] at this
          omega
    · split at h
      · cases h
      · have := ih _ _ _ h
        simp only [List.length_append, List.length_cons, List.length_nil] at this
        omega

/-- A name takes at most two bytes more than it has characters. -/
theorem host_short (m : Builder) (name : Bytes) :
    ((host m name).1.pkt.length ≤ m.pkt.length + name.length + 2) := by
  unfold host
  split
  · simp only; omega
  · rename_i lab h
    obtain ⟨_, h2, h3⟩ := mkLabel_spec name [] [] lab h (by simp)
    have := mkLabel_length name [] [] lab h
    have := compressF_length lab m.pkt m.labels h3 lab.length 0
    simp only [List.length_append, List.length_nil] at *
    omega

theorem patchShort_length (pkt : Bytes) (o v : Nat) (h : o + 2 ≤ pkt.length) : (patchShort pkt o v).length = pkt.length := by
  simp only [patchShort, putShort, List.length_append, List.length_take, List.length_drop, List.length_cons, List.length_nil]
  omega

theorem host_grows (m : Builder) (name : Bytes) : m.pkt.length ≤ (host m name).1.pkt.length := by
  obtain ⟨out, e, _⟩ := host_pkt m name
  rw [e, List.length_append]
  omega

/-! ### Operations -/

/-- How many bytes the data of a record takes. -/
def MOp.cost : MOp → Nat
  | .b (.qd n _ _) => n.length + 6
  | .b (.rr _ n _ _ _) => n.length + 10
  | .b (.long _) => 6
  | .b (.ipv4 _) => 6
  | .b (.ipv6 _) => 18
  | .b (.name n) => n.length + 4
  | .b (.srv _ _ _ n) => n.length + 10
  | .b (.raw d) => d.length + 2
  | .srvNull .. => 8

/-- The same without regard to the name. -/
def MOp.most : MOp → Nat
  | .b o => maxCost o
  | .srvNull .. => 8

theorem mstep_len (m : Builder) (o : MOp) : m.pkt.length ≤ (mstep m o).pkt.length ∧
    (mstep m o).pkt.length ≤ m.pkt.length + o.cost ∧ (mstep m o).pkt.length ≤ m.pkt.length + o.most := by
  have hb : ∀ b : BOp, m.pkt.length ≤ (bstep m b).pkt.length ∧ (bstep m b).pkt.length ≤ m.pkt.length + maxCost b := by
    intro b
    obtain ⟨added, e, h⟩ := C10_append_only m b
    rw [e, List.length_append]
    omega
  cases o with
  | srvNull p w o =>
    simp [mstep, Builder.put, putShort, MOp.cost, MOp.most]
  | b b =>
    refine ⟨(hb b).1, ?_, (hb b).2⟩
    cases b with
    | qd n t c =>
      have := host_short { m with qd := m.qd + 1 } n
      simp only [mstep, bstep, messageQd, Builder.put, List.length_append, putShort, List.length_cons, List.length_nil, MOp.cost]
      simp only at this
      omega
    | rr s n t c l =>
      have gen : ∀ m' : Builder, m'.pkt = m.pkt → (rrAppend m' n t c l).pkt.length ≤ m.pkt.length + n.length + 10 := by
        intro m' hm
        have := host_short m' n
        rw [hm] at this
        simp only [rrAppend, Builder.put, List.length_append, putShort, putLong, List.length_cons, List.length_nil]
        omega
      simp only [mstep, bstep, MOp.cost]
      cases s <;> exact gen _ rfl
    | long l => exact (hb _).2
    | ipv4 a => exact (hb _).2
    | ipv6 a => exact (hb _).2
    | name n =>
      have h1 := host_short (m.put [0, 0]) n
      have h2 := host_grows (m.put [0, 0]) n
      simp only [mstep, bstep, rdataName, MOp.cost]
      simp only [Builder.put, List.length_append, List.length_cons, List.length_nil] at h1 h2
      rw [patchShort_length _ _ _ (by simp only [Builder.put]; omega)]
      simp only [Builder.put]
      omega
    | srv p w o n =>
      have h1 := host_short ((((m.put [0, 0]).put (putShort p)).put (putShort w)).put (putShort o)) n
      have h2 := host_grows ((((m.put [0, 0]).put (putShort p)).put (putShort w)).put (putShort o)) n
      simp only [mstep, bstep, rdataSrv, MOp.cost]
      simp only [Builder.put, List.length_append, List.length_cons, List.length_nil, putShort] at h1 h2
      rw [patchShort_length _ _ _ (by simp only [Builder.put, putShort]; omega)]
      simp only [Builder.put, putShort]
      omega
    | raw d =>
      have := (hb (.raw d)).2
      simp only [maxCost, MOp.cost] at *
      exact Nat.le_trans this (by omega)

theorem foldl_len : ∀ (ops : List MOp) (m : Builder), m.pkt.length ≤ (ops.foldl mstep m).pkt.length ∧
    (ops.foldl mstep m).pkt.length ≤ m.pkt.length + (ops.map MOp.cost).sum ∧
    (ops.foldl mstep m).pkt.length ≤ m.pkt.length + (ops.map MOp.most).sum
  | [], m => by simp
  | o :: ops, m => by
    have h1 := mstep_len m o
    have h2 := foldl_len ops (mstep m o)
    simp only [List.foldl_cons, List.map_cons, List.sum_cons]
    omega

theorem Out.add_builder (m : Out) (ops : List MOp) : (m.add ops).builder = ops.foldl mstep m.builder := by
  simp [Out.builder, Out.add]

theorem Out.add_len (m : Out) (ops : List MOp) : m.len ≤ (m.add ops).len ∧
    (m.add ops).len ≤ m.len + (ops.map MOp.cost).sum ∧ (m.add ops).len ≤ m.len + (ops.map MOp.most).sum := by
  unfold Out.len packetLen
  rw [Out.add_builder]
  exact foldl_len ops m.builder

theorem Out.put_len_eq (m : Out) (s : Section) (r : Nat) (a : Answer) (cls : Nat) :
    (m.put s r a cls).len = (m.add (rrOps s a cls)).len := rfl

theorem Out.put_grows (m : Out) (s : Section) (r : Nat) (a : Answer) (cls : Nat) : m.len ≤ (m.put s r a cls).len :=
  (Out.add_len m _).1

theorem aCopy_cost (a : Answer) : ((aCopy a).map MOp.cost).sum ≤ rrLen a - 2 := by
  unfold aCopy rrLen
  split
  · cases a.rdname <;> simp [MOp.cost] <;> omega
  · rename_i h33
    cases hn : a.rdname with
    | some n => simp [MOp.cost]; omega
    | none =>
      cases hd : a.rdata with
      | some d => simp [MOp.cost]; omega
      | none =>
        simp only
        split
        · simp [MOp.cost]; omega
        · split
          · simp [MOp.cost]; omega
          · simp

/-- What a record takes beyond what `_rr_len` says: at most its name and a little more. -/
theorem Out.put_over (m : Out) (s : Section) (r : Nat) (a : Answer) (cls : Nat) :
    (m.put s r a cls).len ≤ m.len + rrLen a + 262 ∧ (m.put s r a cls).len ≤ m.len + rrLen a + a.name.length + 8 := by
  rw [Out.put_len_eq]
  unfold Out.len packetLen
  rw [Out.add_builder]
  unfold rrOps
  rw [List.foldl_cons]
  have h1 := mstep_len m.builder (.b (.rr s a.name a.type cls a.ttl))
  have h2 := (foldl_len (aCopy a) (mstep m.builder (.b (.rr s a.name a.type cls a.ttl)))).2.1
  have h3 := aCopy_cost a
  have h4 : 2 ≤ rrLen a := by unfold rrLen; omega
  simp only [MOp.cost, MOp.most, maxCost] at h1
  omega

theorem rawStep_most (m : Builder) (d : Bytes) : (mstep m (.b (.raw d))).pkt.length ≤ max m.pkt.length 4096 + 2 := by
  simp only [mstep, bstep, rdataRaw]
  split
  · simp only [Builder.put, List.length_append, putShort, List.length_cons, List.length_nil]
    omega
  · simp only [Builder.put, List.length_append, putShort, List.length_cons, List.length_nil]
    omega

/-- A record takes at most 4096 bytes and a little more, however large its data. -/
theorem Out.put_most (m : Out) (s : Section) (r : Nat) (a : Answer) (cls : Nat) :
    (m.put s r a cls).len ≤ max m.len 4096 + 528 := by
  rw [Out.put_len_eq]
  unfold Out.len packetLen
  rw [Out.add_builder]
  unfold rrOps
  rw [List.foldl_cons]
  have h1 := (mstep_len m.builder (.b (.rr s a.name a.type cls a.ttl))).2.2
  simp only [MOp.most, maxCost] at h1
  generalize mstep m.builder (.b (.rr s a.name a.type cls a.ttl)) = m1 at *
  have one : ∀ o, (∀ d, o ≠ MOp.b (.raw d)) → (∀ s n t c l, o ≠ MOp.b (.rr s n t c l)) → (mstep m1 o).pkt.length ≤ m1.pkt.length + 264 := by
    intro o ho ho'
    have := (mstep_len m1 o).2.2
    cases o with
    | srvNull => simp only [MOp.most] at this; omega
    | b o => cases o <;> simp only [MOp.most, maxCost] at this <;> first | omega | exact absurd rfl (ho _) | exact absurd rfl (ho' _ _ _ _ _)
  unfold aCopy
  split
  · cases a.rdname <;> simp only [List.foldl_cons, List.foldl_nil]
    · have := one (.srvNull a.priority a.weight a.port) (by simp) (by simp); omega
    · rename_i n
      have := one (.b (.srv a.priority a.weight a.port n)) (by simp) (by simp); omega
  · cases hn : a.rdname with
    | some n =>
      have := one (.b (.name n)) (by simp) (by simp)
      simp only [List.foldl_cons, List.foldl_nil]
      omega
    | none =>
      cases hd : a.rdata with
      | some d =>
        have := rawStep_most m1 d
        simp only [List.foldl_cons, List.foldl_nil]
        omega
      | none =>
        simp only
        split
        · have := one (.b (.ipv4 a.ip)) (by simp) (by simp)
          simp only [List.foldl_cons, List.foldl_nil]; omega
        · split
          · have := one (.b (.ipv6 a.ip6)) (by simp) (by simp)
            simp only [List.foldl_cons, List.foldl_nil]; omega
          · simp only [List.foldl_nil]; omega

/-! ### The header does not matter -/

/-- The same message with another id and header. -/
def Builder.headed (m : Builder) (id : Nat) (h : Header) : Builder := { m with id := id, header := h }

theorem host_headed (m : Builder) (id : Nat) (h : Header) (n : Bytes) :
    host (m.headed id h) n = ((host m n).1.headed id h, (host m n).2) := by
  unfold host Builder.headed
  split <;> rfl

theorem mstep_headed (m : Builder) (id : Nat) (h : Header) (o : MOp) : mstep (m.headed id h) o = (mstep m o).headed id h := by
  cases o with
  | srvNull => rfl
  | b o =>
    cases o with
    | qd n t c => 
      show (((host (Builder.headed { m with qd := m.qd + 1 } id h) n).1.put _).put _) = _
      rw [host_headed]; rfl
    | rr s n t c l =>
      cases s
      · show ((((host (Builder.headed { m with an := m.an + 1 } id h) n).1.put _).put _).put _) = _
        rw [host_headed]; rfl
      · show ((((host (Builder.headed { m with ns := m.ns + 1 } id h) n).1.put _).put _).put _) = _
        rw [host_headed]; rfl
      · show ((((host (Builder.headed { m with ar := m.ar + 1 } id h) n).1.put _).put _).put _) = _
        rw [host_headed]; rfl
    | long => rfl
    | ipv4 => rfl
    | ipv6 => rfl
    | name n =>
      show (let p := host (Builder.headed (m.put [0, 0]) id h) n
        ({ p.1 with pkt := patchShort p.1.pkt m.pkt.length p.2 } : Builder)) = _
      rw [host_headed]; rfl
    | srv p w o n =>
      show (let q := host (Builder.headed ((((m.put [0, 0]).put (putShort p)).put (putShort w)).put (putShort o)) id h) n
        ({ q.1 with pkt := patchShort q.1.pkt m.pkt.length (q.2 + 6) } : Builder)) = _
      rw [host_headed]; rfl
    | raw d =>
      show (if m.pkt.length + d.length > 4096 then _ else _) = Builder.headed (if m.pkt.length + d.length > 4096 then _ else _) id h
      split <;> rfl

theorem foldl_headed (id : Nat) (h : Header) : ∀ (ops : List MOp) (m : Builder),
    ops.foldl mstep (m.headed id h) = (ops.foldl mstep m).headed id h
  | [], _ => rfl
  | o :: ops, m => by
    rw [List.foldl_cons, mstep_headed, foldl_headed id h ops, List.foldl_cons]

theorem Out.len_ops (m : Out) : m.len = (m.ops.foldl mstep {}).pkt.length := by
  unfold Out.len packetLen Out.builder
  rw [show ({ id := m.id, header := { qr := m.qr, aa := m.aa } } : Builder) =
    Builder.headed {} m.id { qr := m.qr, aa := m.aa } from rfl, foldl_headed]
  rfl

theorem Out.len_header (m : Out) (qr aa : Bool) : ({ m with qr := qr, aa := aa } : Out).len = m.len := by
  rw [Out.len_ops, Out.len_ops]

theorem put_tags (m : Out) (s : Section) (r : Nat) (a : Answer) (cls : Nat) :
    (m.put s r a cls).tags = m.tags ++ [(s, r)] := rfl

end Mdns
