import Verif.Props.RoundTrip

/-!
# C08: a datagram is interpreted from its own bytes only

`message_parse` does not know the length of the datagram, and `process_in`
clears the receive buffer once per call but receives several datagrams into it.
The claim is false in general (`C08_stale_bytes_counterexample`); it is proved for
datagrams whose parse does not run past their end, which includes everything the
builder produces.
-/

namespace Mdns

/-- `r'` is the outcome `r` continued: equal unless `r` stopped because bytes (or
fuel) were missing. -/
def Le {α : Type} (r r' : PRes α) : Prop := r = .oob ∨ r = .hang ∨ r = r'

theorem Le.refl {α} (r : PRes α) : Le r r := .inr (.inr rfl)

theorem Le.bind {α β : Type} {r r' : PRes α} {f f' : α → PRes β} (h : Le r r') (hf : ∀ a, Le (f a) (f' a)) :
    Le (r >>= f) (r' >>= f') := by
  rcases h with rfl | rfl | rfl
  · exact .inl rfl
  · exact .inr (.inl rfl)
  · cases r with
    | ok a => exact hf a
    | fail => exact .refl _
    | oob => exact .inl rfl
    | wub => exact .refl _
    | hang => exact .inr (.inl rfl)

/-- `b'` has the bytes of `b` and more. -/
structure Ext (b b' : RBuf) : Prop where
  size : b.size ≤ b'.size
  bytes : ∀ i, i < b.size → b.at_ i = b'.at_ i

theorem le_rd {b b'} (h : Ext b b') (i : Nat) : Le (b.rd i) (b'.rd i) := by
  unfold RBuf.rd
  split
  · rename_i hi
    rw [if_pos (Nat.lt_of_lt_of_le hi h.size), h.bytes i hi]; exact .refl _
  · exact .inl rfl

theorem le_rdN {b b'} (h : Ext b b') (i n : Nat) : Le (b.rdN i n) (b'.rdN i n) := by
  unfold RBuf.rdN
  split
  · exact .refl _
  · split
    · rename_i hi
      rw [if_pos (Nat.le_trans hi h.size)]
      right; right
      congr 1
      apply List.map_congr_left
      intro k hk
      exact h.bytes _ (by have := List.mem_range.1 hk; omega)
    · exact .inl rfl

theorem le_short {b b'} (h : Ext b b') (i : Nat) : Le (b.short i) (b'.short i) := by
  unfold RBuf.short
  exact .bind (le_rd h _) fun _ => .bind (le_rd h _) fun _ => .refl _

theorem le_long {b b'} (h : Ext b b') (i : Nat) : Le (b.long i) (b'.long i) := by
  unfold RBuf.long
  exact .bind (le_rd h _) fun _ => .bind (le_rd h _) fun _ => .bind (le_rd h _) fun _ => .bind (le_rd h _) fun _ => .refl _

theorem le_skipPtr {b b'} (h : Ext b b') (len : Nat) : ∀ fuel prev label,
    Le (skipPtrF b len fuel prev label) (skipPtrF b' len fuel prev label) := by
  intro fuel
  induction fuel with
  | zero => intro _ _; exact .refl _
  | succ fuel ih =>
    intro prev label
    unfold skipPtrF
    refine .bind (le_rd h _) fun c => ?_
    split
    · refine .bind (le_rd h _) fun c1 => ?_
      simp only
      split
      · exact .refl _
      · refine .bind (le_rd h _) fun t => ?_
        split
        · exact .refl _
        · exact ih _ _
    · exact .refl _

theorem le_copy {b b'} (h : Ext b b') (cap len : Nat) : ∀ fuel label name,
    Le (copyLabelsF b cap len fuel label name) (copyLabelsF b' cap len fuel label name) := by
  intro fuel
  induction fuel with
  | zero => intro _ _; exact .refl _
  | succ fuel ih =>
    intro label name
    unfold copyLabelsF
    refine .bind (le_rd h _) fun c => ?_
    split
    · exact .refl _
    · refine .bind (le_skipPtr h _ _ _ _) fun l => .bind (le_rd h _) fun c => ?_
      simp only
      split
      · exact .refl _
      · exact .bind (le_rdN h _ _) fun _ => .bind (.refl _) fun _ => ih _ _

theorem le_advance {b b'} (h : Ext b b') : ∀ fuel fuel' label, fuel ≤ fuel' →
    Le (advanceF b fuel label) (advanceF b' fuel' label) := by
  intro fuel
  induction fuel with
  | zero => intro _ _ _; exact .inr (.inl rfl)
  | succ fuel ih =>
    intro fuel' label hf
    obtain ⟨f, rfl⟩ : ∃ f, fuel' = f + 1 := ⟨fuel' - 1, by omega⟩
    unfold advanceF
    refine .bind (le_rd h _) fun c => ?_
    split
    · exact .refl _
    · split
      · exact .refl _
      · exact ih _ _ (by omega)

theorem le_parseLabel {b b'} (h : Ext b b') (cap : Nat) (s : PState) :
    Le (parseLabel b cap s) (parseLabel b' cap s) := by
  unfold parseLabel
  split
  · exact .refl _
  · exact .bind (le_copy h _ _ _ _ _) fun _ => .bind (le_advance h _ _ _ (by have := h.size; omega)) fun _ =>
      .bind (.refl _) fun _ => .refl _

theorem le_parseRr {b b'} (h : Ext b b') (cap slot : Nat) (s : PState) :
    Le (parseRr b cap slot s) (parseRr b' cap slot s) := by
  unfold parseRr
  refine .bind (le_parseLabel h _ _) fun x => .bind (.refl _) fun _ => .bind (le_short h _) fun _ =>
    .bind (le_short h _) fun _ => .bind (le_long h _) fun _ => .bind (le_short h _) fun _ => ?_
  simp only
  split
  · exact .refl _
  · split
    · exact .bind (le_parseLabel h _ _) fun _ => .refl _
    · split
      · exact .bind (le_short h _) fun _ => .bind (le_short h _) fun _ => .bind (le_short h _) fun _ =>
          .bind (le_parseLabel h _ _) fun _ => .refl _
      · refine .bind (.refl _) fun _ => .bind (le_rdN h _ _) fun _ => ?_
        split
        · split
          · exact .refl _
          · exact .bind (.refl _) fun _ => .bind (le_rdN h _ _) fun _ => .refl _
        · split
          · split
            · exact .refl _
            · exact .bind (.refl _) fun _ => .bind (le_rdN h _ _) fun _ => .refl _
          · exact .refl _

theorem le_parseRrs {b b'} (h : Ext b b') (cap : Nat) : ∀ n slot s,
    Le (parseRrs b cap slot n s) (parseRrs b' cap slot n s) := by
  intro n
  induction n with
  | zero => intro _ _; exact .refl _
  | succ n ih =>
    intro slot s
    unfold parseRrs
    exact .bind (le_parseRr h _ _ _) fun _ => .bind (ih _ _) fun _ => .refl _

theorem le_parseQds {b b'} (h : Ext b b') (cap : Nat) : ∀ n slot s,
    Le (parseQds b cap slot n s) (parseQds b' cap slot n s) := by
  intro n
  induction n with
  | zero => intro _ _; exact .refl _
  | succ n ih =>
    intro slot s
    unfold parseQds
    exact .bind (le_parseLabel h _ _) fun _ => .bind (.refl _) fun _ => .bind (le_short h _) fun _ =>
      .bind (le_short h _) fun _ => .bind (ih _ _) fun _ => .refl _

theorem le_messageParse {b b'} (h : Ext b b') (cap : Nat) : Le (messageParse b cap) (messageParse b' cap) := by
  unfold messageParse
  refine .bind (le_short h _) fun _ => .bind (le_rd h _) fun _ => .bind (le_rd h _) fun _ =>
    .bind (le_short h _) fun _ => ?_
  split
  · exact .refl _
  · refine .bind (le_short h _) fun _ => ?_
    split
    · exact .refl _
    · refine .bind (le_short h _) fun _ => ?_
      split
      · exact .refl _
      · refine .bind (le_short h _) fun _ => ?_
        split
        · exact .refl _
        · unfold parseBody
          exact .bind (le_parseQds h _ _ _ _) fun _ => .bind (le_parseRrs h _ _ _ _) fun _ =>
            .bind (le_parseRrs h _ _ _ _) fun _ => .bind (le_parseRrs h _ _ _ _) fun _ => .refl _

/-! ### Spec: the receive buffer -/

/-- Parsing the datagram alone does not run past its end. -/
def SelfContained (d : Bytes) : Prop := messageParse ⟨d.length, fun i => d.getD i 0⟩ structCap ≠ .oob

/-- **C08 (partial).** A datagram whose parse does not run past its end is
interpreted independently of whatever was in the buffer. -/
theorem C08_self_contained_partial (d : Bytes) (hd : SelfContained d) (hl : d.length ≤ recvSize)
    (old old' : Nat → UInt8) :
    messageParse ⟨recvSize, received old d⟩ structCap = messageParse ⟨recvSize, received old' d⟩ structCap := by
  have key : ∀ old, messageParse ⟨d.length, fun i => d.getD i 0⟩ structCap
      = messageParse ⟨recvSize, received old d⟩ structCap := by
    intro old
    have hext : Ext ⟨d.length, fun i => d.getD i 0⟩ ⟨recvSize, received old d⟩ :=
      ⟨hl, fun i hi => by simp only at hi; simp only [received, hi, if_true]⟩
    rcases le_messageParse hext structCap with h | h | h
    · exact absurd h hd
    · exact absurd h (C04_parse_terminates _)
    · exact h
  rw [← key old, ← key old']

/-- **C08 (partial).** Packets made by the builder (within the limits of C03) are
interpreted independently of the rest of the buffer, with the result of C03. -/
theorem C08_built_packets_partial (top : Bytes) (m : MSpec) (hm : m.Ok top) (old : Nat → UInt8) :
    messageParse ⟨recvSize, received old m.packet⟩ structCap = .ok m.seen := by
  have hP := hm.packet
  refine C03_build_parse_partial top m hm _ ⟨?_, ?_⟩
  · simp only [recvSize]; omega
  · intro i hi
    simp [received, hi]

/-- A self-contained datagram: one question. -/
example : SelfContained [0,0,0,0,0,1,0,0,0,0,0,0, 1,0x61,0, 0,1,0,1] := by
  unfold SelfContained
  decide +kernel

/-- **C08 is false in general**: the 12 byte datagram that announces one question
and ends is decoded as a question for "a." after a longer datagram, and as a
question for the root in a cleared buffer. -/
theorem C08_stale_bytes_counterexample :
    messageParse ⟨recvSize, received (received (fun _ => 0) [0,0,0,0,0,1,0,0,0,0,0,0, 1,0x61,0, 0,1,0,1])
        [0,0,0,0,0,1,0,0,0,0,0,0]⟩ structCap
      = .ok ⟨0, {}, [⟨[0x61, 0x2E], 1, 1⟩], [], [], []⟩ ∧
    messageParse ⟨recvSize, received (fun _ => 0) [0,0,0,0,0,1,0,0,0,0,0,0]⟩ structCap
      = .ok ⟨0, {}, [⟨[], 0, 0⟩], [], [], []⟩ := by
  constructor <;> decide +kernel

end Mdns
