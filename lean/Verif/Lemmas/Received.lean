import Verif.Model.Received
import Verif.Lemmas.Parser

/-! Lemmas about the memory of a parsed message. -/

namespace Mdns.Received

/-- Both end in the same way, and results are related by `R`. -/
def PSim {α β : Type} (R : α → β → Prop) : PRes α → PRes β → Prop
  | .ok a, .ok b => R a b
  | .fail, .fail => True
  | .oob, .oob => True
  | .wub, .wub => True
  | .hang, .hang => True
  | _, _ => False

theorem PSim.bind {α β γ δ : Type} {R : α → β → Prop} {S : γ → δ → Prop} {x : PRes α} {y : PRes β}
    {f : α → PRes γ} {g : β → PRes δ} (h : PSim R x y) (hf : ∀ a b, R a b → PSim S (f a) (g b)) :
    PSim S (x >>= f) (y >>= g) := by
  cases x <;> cases y <;> first | exact hf _ _ h | exact h.elim | trivial

theorem PSim.same {α β γ : Type} {S : β → γ → Prop} {x : PRes α} {f : α → PRes β} {g : α → PRes γ}
    (hf : ∀ a, x = .ok a → PSim S (f a) (g a)) : PSim S (x >>= f) (x >>= g) := by
  cases x <;> first | exact hf _ rfl | trivial

theorem PSim.mono {α β : Type} {R S : α → β → Prop} {x : PRes α} {y : PRes β} (h : PSim R x y)
    (hs : ∀ a b, R a b → S a b) : PSim S x y := by
  cases x <;> cases y <;> first | exact hs _ _ h | exact h

theorem bind_ok {α β : Type} {x : PRes α} {f : α → PRes β} {b : β} (h : (x >>= f) = .ok b) :
    ∃ a, x = .ok a ∧ f a = .ok b := by
  cases x with
  | ok a => exact ⟨a, rfl, h⟩
  | fail => cases h
  | oob => cases h
  | wub => cases h
  | hang => cases h

theorem rdN_length {b : RBuf} {i n : Nat} {d : Bytes} (h : b.rdN i n = .ok d) : d.length = n := by
  unfold RBuf.rdN at h
  split at h
  · cases h; simp [*]
  · split at h
    · cases h; simp
    · cases h

theorem wr_le {cap stop : Nat} {u : Unit} (h : wr cap stop = .ok u) : stop ≤ cap := by
  unfold wr at h
  split at h
  · assumption
  · cases h

theorem copy_len {b : RBuf} {cap len : Nat} : ∀ {fuel label : Nat} {name t : Bytes},
    copyLabelsF b cap len fuel label name = .ok t → t = name ∨ len + t.length ≤ maxPacketLen := by
  intro fuel
  induction fuel with
  | zero => intro label name t h; simp [copyLabelsF] at h
  | succ fuel ih =>
    intro label name t h
    unfold copyLabelsF at h
    obtain ⟨c, _, h⟩ := bind_ok h
    split at h
    · cases h; exact .inl rfl
    · obtain ⟨l, _, h⟩ := bind_ok h
      obtain ⟨c2, _, h⟩ := bind_ok h
      simp only at h
      split at h
      · cases h
      · rename_i hlim
        obtain ⟨chars, hch, h⟩ := bind_ok h
        obtain ⟨_, _, h⟩ := bind_ok h
        have hl := rdN_length hch
        rcases ih h with h' | h'
        · refine .inr ?_
          subst h'
          simp only [List.length_append, List.length_cons, List.length_nil]
          omega
        · exact .inr h'

/-- `d` lies at `o`, below `len`, in the part of the block that holds texts. -/
def Dat (lo st cap : Nat) (m : Mem) (len o : Nat) (d : Bytes) : Prop :=
  (∀ j x, d[j]? = some x → m (o + j) = x) ∧ o + d.length ≤ len ∧ o + d.length ≤ cap ∧
    (o + d.length ≤ lo ∨ st ≤ o)

/-- A C string lies at `o`. -/
def Txt (lo st cap : Nat) (m : Mem) (len o : Nat) (t : Bytes) : Prop :=
  Dat lo st cap m len o (t ++ [0]) ∧ 0 ∉ t

/-- Texts below `n` are the same. -/
def Frame (lo st n : Nat) (m m' : Mem) : Prop := ∀ i, i < n → i < lo ∨ st ≤ i → m' i = m i

theorem Frame.refl {lo st n : Nat} {m : Mem} : Frame lo st n m m := fun _ _ _ => rfl

theorem Frame.trans {lo st n n' : Nat} {m m' m'' : Mem} (h : Frame lo st n m m') (hn : n ≤ n')
    (h' : Frame lo st n' m' m'') : Frame lo st n m m'' :=
  fun i hi hp => (h' i (by omega) hp).trans (h i hi hp)

theorem lookup_lt {α : Type} {d : List α} {j : Nat} {x : α} (h : d[j]? = some x) : j < d.length := by
  rcases Nat.lt_or_ge j d.length with h' | h'
  · exact h'
  · rw [List.getElem?_eq_none h'] at h; cases h

theorem Dat.frame {lo st cap len len' o : Nat} {m m' : Mem} {d : Bytes} (h : Dat lo st cap m len o d)
    (hf : Frame lo st len m m') (hl : len ≤ len') : Dat lo st cap m' len' o d := by
  obtain ⟨h1, h2, h3, h4⟩ := h
  refine ⟨?_, by omega, h3, h4⟩
  intro j x hj
  have := lookup_lt hj
  rw [hf (o + j) (by omega) (by omega)]
  exact h1 j x hj

theorem Txt.frame {lo st cap len len' o : Nat} {m m' : Mem} {t : Bytes} (h : Txt lo st cap m len o t)
    (hf : Frame lo st len m m') (hl : len ≤ len') : Txt lo st cap m' len' o t :=
  ⟨h.1.frame hf hl, h.2⟩

theorem strF_eq {m : Mem} : ∀ {t : Bytes} {n o : Nat}, (∀ j x, (t ++ [0])[j]? = some x → m (o + j) = x) →
    0 ∉ t → t.length < n → strF m n o = .ok t := by
  intro t
  induction t with
  | nil =>
    intro n o h _ hn
    cases n with
    | zero => simp at hn
    | succ n =>
      have := h 0 0 rfl
      simp only [Nat.add_zero] at this
      simp [strF, this]
  | cons x t ih =>
    intro n o h h0 hn
    cases n with
    | zero => simp at hn
    | succ n =>
      have hx := h 0 x rfl
      simp only [Nat.add_zero] at hx
      simp only [List.mem_cons, not_or] at h0
      have hne : ¬ m o = 0 := by rw [hx]; exact fun e => h0.1 e.symm
      have hr : strF m n (o + 1) = .ok t := by
        refine ih ?_ h0.2 (by simpa using hn)
        intro j y hj
        have := h (j + 1) y (by simpa using hj)
        rw [show o + 1 + j = o + (j + 1) by omega]
        exact this
      rw [strF, if_neg hne, hr, hx]
      rfl

theorem Txt.read {lo st cap len o : Nat} {m : Mem} {t : Bytes} (h : Txt lo st cap m len o t) :
    strAt cap m o = .ok t := by
  obtain ⟨⟨h1, h2, h3, h4⟩, h0⟩ := h
  simp only [List.length_append, List.length_cons, List.length_nil] at h3
  exact strF_eq h1 h0 (by omega)

theorem Dat.read {lo st cap len o : Nat} {m : Mem} {d : Bytes} (h : Dat lo st cap m len o d) :
    bytesAt cap m o d.length = .ok d := by
  obtain ⟨h1, h2, h3, h4⟩ := h
  unfold bytesAt
  by_cases h0 : d.length = 0
  · rw [if_pos h0, List.length_eq_zero_iff.1 h0]
  · rw [if_neg h0, if_pos h3]
    congr 1
    apply List.ext_getElem?
    intro j
    rcases Nat.lt_or_ge j d.length with hj | hj
    · rw [List.getElem?_map, List.getElem?_range hj, List.getElem?_eq_getElem hj]
      simp only [Option.map_some]
      congr 1
      exact h1 j _ (List.getElem?_eq_getElem hj)
    · rw [List.getElem?_eq_none hj, List.getElem?_eq_none (by simpa using hj)]

theorem cstr_zero {t : Bytes} : 0 ∉ cstr t := by
  unfold cstr
  induction t with
  | nil => simp
  | cons a t ih =>
    rw [List.takeWhile_cons]
    split
    · rename_i ha
      simp only [List.mem_cons, not_or]
      exact ⟨fun e => by simp [← e] at ha, ih⟩
    · simp

/-- A text up to its first zero. -/
theorem cstr_lookup {t : Bytes} {j : Nat} {x : UInt8} (h : (cstr t ++ [0])[j]? = some x) :
    (t ++ [0])[j]? = some x := by
  unfold cstr at h
  induction t generalizing j with
  | nil => simpa using h
  | cons a t ih =>
    rw [List.takeWhile_cons] at h
    split at h
    · cases j with
      | zero => simpa using h
      | succ j => simpa using ih (by simpa using h)
    · rename_i ha
      have ha : a = 0 := by simpa using ha
      cases j with
      | zero => simpa [ha] using h
      | succ j => simp at h

theorem cstr_length {t : Bytes} : (cstr t).length ≤ t.length := by
  unfold cstr
  exact (List.takeWhile_sublist _).length_le

theorem store_in {m : Mem} {o j : Nat} {d : Bytes} {x : UInt8} (h : d[j]? = some x) :
    store m o d (o + j) = x := by
  have := lookup_lt h
  unfold store
  rw [if_pos (by omega), show o + j - o = j by omega, List.getD_eq_getElem?_getD, h]
  rfl

theorem store_out {m : Mem} {o i : Nat} {d : Bytes} (h : i < o ∨ o + d.length ≤ i) : store m o d i = m i := by
  unfold store
  rw [if_neg (by omega)]

theorem store_frame {lo st n o : Nat} {m : Mem} {d : Bytes} (h : n ≤ o) : Frame lo st n m (store m o d) :=
  fun i hi _ => store_out (.inl (by omega))

theorem slot_frame {lo st n o k : Nat} {m : Mem} {junk : Junk} (h : lo ≤ o) (h' : o + k ≤ st) :
    Frame lo st n m (store m o (struct junk o k)) := by
  intro i _ hp
  refine store_out ?_
  have : (struct junk o k).length = k := by simp [struct]
  omega

/-- The names seen are where `_labels` says. -/
def Labs (lo st cap : Nat) (m : Mem) (len : Nat) : List Nat → List Bytes → Prop
  | [], [] => True
  | o :: os, n :: ns => Txt lo st cap m len o n ∧ Labs lo st cap m len os ns
  | _, _ => False

theorem Labs.frame {lo st cap len len' : Nat} {m m' : Mem} (hf : Frame lo st len m m') (hl : len ≤ len') :
    ∀ {os : List Nat} {ns : List Bytes}, Labs lo st cap m len os ns → Labs lo st cap m' len' os ns := by
  intro os
  induction os with
  | nil => intro ns h; cases ns <;> first | trivial | exact h.elim
  | cons o os ih =>
    intro ns h
    cases ns with
    | nil => exact h.elim
    | cons n ns => exact ⟨h.1.frame hf hl, ih h.2⟩

theorem Labs.add {lo st cap len o : Nat} {m : Mem} {n : Bytes} (ht : Txt lo st cap m len o n) :
    ∀ {os : List Nat} {ns : List Bytes}, Labs lo st cap m len os ns →
    Labs lo st cap m len (os ++ [o]) (ns ++ [n]) := by
  intro os
  induction os with
  | nil => intro ns h; cases ns <;> first | exact ⟨ht, trivial⟩ | exact h.elim
  | cons o os ih =>
    intro ns h
    cases ns with
    | nil => exact h.elim
    | cons n ns => exact ⟨h.1, ih h.2⟩

theorem Labs.length {lo st cap len : Nat} {m : Mem} :
    ∀ {os : List Nat} {ns : List Bytes}, Labs lo st cap m len os ns → os.length = ns.length := by
  intro os
  induction os with
  | nil => intro ns h; cases ns <;> first | rfl | exact h.elim
  | cons o os ih =>
    intro ns h
    cases ns with
    | nil => exact h.elim
    | cons n ns => simp [ih h.2]

theorem find_eq {lo st cap len : Nat} {m : Mem} {name : Bytes} :
    ∀ {os : List Nat} {ns : List Bytes}, Labs lo st cap m len os ns →
    (name ∈ ns ∧ ∃ o, findLabel cap m name os = .ok (some o) ∧ Txt lo st cap m len o name) ∨
    (name ∉ ns ∧ findLabel cap m name os = .ok none) := by
  intro os
  induction os with
  | nil =>
    intro ns h
    cases ns with
    | nil => exact .inr ⟨by simp, rfl⟩
    | cons n ns => exact h.elim
  | cons o os ih =>
    intro ns h
    cases ns with
    | nil => exact h.elim
    | cons n ns =>
      obtain ⟨h1, h2⟩ := h
      simp only [findLabel, h1.read, PRes.bind]
      by_cases hn : n = name
      · subst hn
        exact .inl ⟨by simp, o, by simp, h1⟩
      · rw [if_neg hn]
        rcases ih h2 with h | h
        · exact .inl ⟨by simp [h.1], h.2⟩
        · exact .inr ⟨by simp only [List.mem_cons, not_or]; exact ⟨fun e => hn e.symm, h.1⟩, h.2⟩

/-- The two parsers are at the same place. -/
structure Inv (lo st cap : Nat) (s : BState) (p : PState) : Prop where
  pos : s.pos = p.pos
  len : s.len = p.len
  low : lo ≤ st
  start : st ≤ s.len
  labs : Labs lo st cap s.mem s.len s.labels p.cache
  zero : s.mem maxPacketLen = 0

/-- What a step of the parser keeps. -/
structure Kept (lo st : Nat) (s s' : BState) : Prop where
  len : s.len ≤ s'.len
  frame : Frame lo st s.len s.mem s'.mem

theorem Kept.refl {lo st : Nat} {s : BState} : Kept lo st s s := ⟨Nat.le_refl _, Frame.refl⟩

theorem Kept.trans {lo st : Nat} {s s' s'' : BState} (h : Kept lo st s s') (h' : Kept lo st s' s'') :
    Kept lo st s s'' :=
  ⟨Nat.le_trans h.len h'.len, h.frame.trans h.len h'.frame⟩

theorem label_sim {b : RBuf} {cap lo st : Nat} {s : BState} {p : PState} (hi : Inv lo st cap s p) :
    PSim (fun x y => Inv lo st cap x.2 y.2 ∧ Txt lo st cap x.2.mem x.2.len x.1 y.1 ∧
      Kept lo st s x.2 ∧ s.len < maxPacketLen) (blockLabel b cap s) (parseLabel b cap p) := by
  unfold blockLabel parseLabel
  rw [← hi.len, ← hi.pos]
  split
  · trivial
  · rename_i hlen
    refine PSim.same fun text ht => PSim.same fun pos _ => PSim.same fun u hw => ?_
    have hw := wr_le hw
    have hmax : s.len + text.length ≤ maxPacketLen := by
      rcases copy_len ht with h | h
      · subst h; simp only [List.length_nil]; omega
      · exact h
    have hfr : Frame lo st s.len s.mem (store s.mem s.len (text ++ [0])) := store_frame (Nat.le_refl _)
    have hz : store s.mem s.len (text ++ [0]) maxPacketLen = 0 := by
      rcases Nat.lt_or_ge (s.len + text.length) maxPacketLen with h | h
      · rw [store_out (.inr (by simp only [List.length_append, List.length_cons, List.length_nil]; omega))]
        exact hi.zero
      · rw [show maxPacketLen = s.len + text.length by omega]
        exact store_in (by simp)
    have hst := hi.start
    have hnew : Txt lo st cap (store s.mem s.len (text ++ [0])) (s.len + text.length + 1) s.len (cstr text) := by
      refine ⟨⟨fun j x hj => store_in (cstr_lookup hj), ?_, ?_, .inr hst⟩, cstr_zero⟩
      · have := cstr_length (t := text)
        simp only [List.length_append, List.length_cons, List.length_nil]; omega
      · have := cstr_length (t := text)
        simp only [List.length_append, List.length_cons, List.length_nil]; omega
    have hrd := hnew.read
    have hlab := hi.labs.frame hfr (Nat.le_refl _)
    simp only [hrd]
    rcases find_eq (name := cstr text) hlab with ⟨hm, o, hf, hto⟩ | ⟨hm, hf⟩
    · show PSim _ (findLabel cap _ (cstr text) s.labels >>= _) _
      rw [hf, if_pos hm]
      exact ⟨⟨rfl, rfl, hi.low, hi.start, hlab, hz⟩, hto, ⟨Nat.le_refl _, hfr⟩, by omega⟩
    · show PSim _ (findLabel cap _ (cstr text) s.labels >>= _) _
      rw [hf, if_neg hm]
      show PSim _ (keepLabel s.labels s.len >>= _) (cacheName p.cache (cstr text) >>= _)
      have hl := hi.labs.length
      unfold keepLabel cacheName putLabel
      rw [hl]
      have hlab' := hi.labs.frame hfr (show s.len ≤ s.len + text.length + 1 by omega)
      have hk : ∀ (ls : List Nat), Kept lo st s
          { pos := pos, len := s.len + text.length + 1, labels := ls,
            mem := store s.mem s.len (text ++ [0]) } := fun _ => ⟨by simp only; omega, hfr⟩
      split
      · split
        · exact ⟨⟨rfl, rfl, hi.low, by simp only; omega, hlab'.add hnew, hz⟩, hnew, hk _, by omega⟩
        · trivial
      · exact ⟨⟨rfl, rfl, hi.low, by simp only; omega, hlab', hz⟩, hnew, hk _, by omega⟩

/-- The data of a record is where the structure says. -/
def RelKnown (lo st cap : Nat) (np : AddrText) (m : Mem) (len : Nat) : RawKnown → Known → Prop
  | .none, .none => True
  | .a t ip, .a ip' => ip = ip' ∧ Txt lo st cap m len t (np.v4 ip)
  | .aaaa t ip, .aaaa ip' => ip = ip' ∧ Txt lo st cap m len t (np.v6 ip)
  | .name n, .name n' => Txt lo st cap m len n n'
  | .srv p w o n, .srv p' w' o' n' => p = p' ∧ w = w' ∧ o = o' ∧ Txt lo st cap m len n n'
  | _, _ => False

/-- Which data a record has depends on its type. -/
def Typed (r : Resource) : Prop :=
  match r.known with
  | .a _ => r.type = 1
  | .aaaa _ => r.type = 28
  | .name _ => r.type = 2 ∨ r.type = 5 ∨ r.type = 12
  | .srv _ _ _ _ => r.type = 33
  | .none => r.type ≠ 1 ∧ r.type ≠ 28 ∧ r.type ≠ 2 ∧ r.type ≠ 5 ∧ r.type ≠ 12 ∧ r.type ≠ 33

/-- A record is where the structure says. -/
structure RelRr (lo st cap : Nat) (np : AddrText) (m : Mem) (len : Nat) (x : RawRr) (r : Resource) : Prop where
  name : Txt lo st cap m len x.name r.name
  type : x.type = r.type
  cls : x.cls = r.cls
  ttl : x.ttl = r.ttl
  rdlength : x.rdlength = r.rdata.length
  rdata : Dat lo st cap m len x.rdata r.rdata
  known : RelKnown lo st cap np m len x.known r.known
  low : x.rdata ≤ maxPacketLen
  typed : Typed r

theorem RelKnown.frame {lo st cap len len' : Nat} {np : AddrText} {m m' : Mem} {x : RawKnown} {k : Known}
    (h : RelKnown lo st cap np m len x k) (hf : Frame lo st len m m') (hl : len ≤ len') :
    RelKnown lo st cap np m' len' x k := by
  cases x <;> cases k <;> try exact h.elim
  · trivial
  · exact ⟨h.1, h.2.frame hf hl⟩
  · exact ⟨h.1, h.2.frame hf hl⟩
  · exact Txt.frame h hf hl
  · exact ⟨h.1, h.2.1, h.2.2.1, h.2.2.2.frame hf hl⟩

theorem RelRr.frame {lo st cap len len' : Nat} {np : AddrText} {m m' : Mem} {x : RawRr} {r : Resource}
    (h : RelRr lo st cap np m len x r) (hf : Frame lo st len m m') (hl : len ≤ len') :
    RelRr lo st cap np m' len' x r :=
  ⟨h.name.frame hf hl, h.type, h.cls, h.ttl, h.rdlength, h.rdata.frame hf hl, h.known.frame hf hl, h.low, h.typed⟩

/-- A store behind everything. -/
theorem Inv.grow {lo st cap : Nat} {s : BState} {p : PState} {pos len : Nat} {m : Mem} (hi : Inv lo st cap s p)
    (hf : Frame lo st s.len s.mem m) (hl : s.len ≤ len) (hz : m maxPacketLen = 0) :
    Inv lo st cap { s with pos := pos, len := len, mem := m } { p with pos := pos, len := len } :=
  ⟨rfl, rfl, hi.low, Nat.le_trans hi.start hl, hi.labs.frame hf hl, hz⟩

theorem store_zero {m : Mem} {o : Nat} {d : Bytes} (hm : m maxPacketLen = 0) (h : o + d.length ≤ maxPacketLen) :
    store m o d maxPacketLen = 0 := by
  rw [store_out (.inr h)]; exact hm

theorem dat_store {lo st cap o len : Nat} {m : Mem} {d : Bytes} (hs : st ≤ o) (hl : o + d.length ≤ len)
    (hc : o + d.length ≤ cap) : Dat lo st cap (store m o d) len o d :=
  ⟨fun _ _ hj => store_in hj, hl, hc, .inr hs⟩

theorem dat_nil {lo st cap len : Nat} {m : Mem} : Dat lo st cap m len 0 [] :=
  ⟨fun _ _ hj => by simp at hj, Nat.zero_le _, Nat.zero_le _, .inl (Nat.zero_le _)⟩

theorem rr_sim {b : RBuf} {cap lo st slot : Nat} {np : AddrText} {junk : Junk} {s : BState} {p : PState}
    (hi : Inv lo st cap s p) (h1 : lo ≤ slot) (h2 : slot + 64 ≤ st) :
    PSim (fun x y => Inv lo st cap x.2 y.2 ∧ RelRr lo st cap np x.2.mem x.2.len x.1 y.1 ∧
      Kept lo st s x.2) (blockRr b cap np junk slot s) (parseRr b cap slot p) := by
  unfold blockRr parseRr
  refine PSim.bind (label_sim hi) ?_
  rintro ⟨name, s1⟩ ⟨name', p1⟩ ⟨hi1, hn1, hk1, hmax⟩
  simp only at hi1 hn1 hk1
  refine PSim.same fun _ _ => ?_
  simp only
  have hst := hi.start
  have hst1 := hi1.start
  have hsf : Frame lo st s1.len s1.mem (store s1.mem slot (struct junk slot 64)) := slot_frame h1 h2
  have hz2 : store s1.mem slot (struct junk slot 64) maxPacketLen = 0 := by
    refine store_zero hi1.zero ?_
    have : (struct junk slot 64).length = 64 := by simp [struct]
    omega
  have hlab2 := hi1.labs.frame hsf (Nat.le_refl _)
  have hn2 := hn1.frame hsf (Nat.le_refl _)
  have hk2 : ∀ ps, Kept lo st s { s1 with pos := ps, mem := store s1.mem slot (struct junk slot 64) } :=
    fun _ => ⟨hk1.len, hk1.frame.trans hk1.len hsf⟩
  generalize store s1.mem slot (struct junk slot 64) = m2 at *
  rw [← hi1.pos]
  refine PSim.same fun type _ => PSim.same fun cls _ => PSim.same fun ttl _ => PSim.same fun rdl _ => ?_
  rw [← hi1.len]
  split
  · trivial
  · rename_i hlim
    split
    · rename_i hty
      have hty : type = 2 ∨ type = 5 ∨ type = 12 := by simpa [isNameType, or_assoc] using hty
      have hi2 : Inv lo st cap { s1 with pos := s1.pos + 10, mem := m2 } { p1 with pos := s1.pos + 10, len := s1.len } :=
        ⟨rfl, rfl, hi1.low, hi1.start, hlab2, hz2⟩
      refine PSim.bind (label_sim hi2) ?_
      rintro ⟨n, s3⟩ ⟨n', p3⟩ ⟨hi3, hn3, hk3, _⟩
      exact ⟨hi3, ⟨hn2.frame hk3.frame hk3.len, rfl, rfl, rfl, rfl, dat_nil, hn3, Nat.zero_le _, hty⟩,
        (hk2 _).trans hk3⟩
    · rename_i hty
      have hty : ¬ (type = 2 ∨ type = 5 ∨ type = 12) := by simpa [isNameType, or_assoc] using hty
      split
      · rename_i h33
        refine PSim.same fun a1 _ => PSim.same fun a2 _ => PSim.same fun a3 _ => ?_
        have hi2 : Inv lo st cap { s1 with pos := s1.pos + 10 + 6, mem := m2 }
            { p1 with pos := s1.pos + 10 + 6, len := s1.len } :=
          ⟨rfl, rfl, hi1.low, hi1.start, hlab2, hz2⟩
        refine PSim.bind (label_sim hi2) ?_
        rintro ⟨n, s3⟩ ⟨n', p3⟩ ⟨hi3, hn3, hk3, _⟩
        exact ⟨hi3, ⟨hn2.frame hk3.frame hk3.len, rfl, rfl, rfl, rfl, dat_nil,
          ⟨rfl, rfl, rfl, hn3⟩, Nat.zero_le _, h33⟩, (hk2 _).trans hk3⟩
      · rename_i h33
        refine PSim.same fun _ hw => PSim.same fun rdata hrd => ?_
        have hw := wr_le hw
        have hrl := rdN_length hrd
        have hz3 : store m2 s1.len rdata maxPacketLen = 0 := store_zero hz2 (by omega)
        have hf3 : Frame lo st s1.len m2 (store m2 s1.len rdata) := store_frame (Nat.le_refl _)
        have hd3 : ∀ len, s1.len + rdl ≤ len →
            Dat lo st cap (store m2 s1.len rdata) len s1.len rdata :=
          fun len hl => dat_store hst1 (by omega) (by omega)
        have hi2 : Inv lo st cap { s1 with mem := m2 } { p1 with pos := s1.pos } :=
          ⟨rfl, hi1.len, hi1.low, hi1.start, hlab2, hz2⟩
        have hlow : s1.len ≤ maxPacketLen := by omega
        split
        · rename_i h1'
          split
          · trivial
          · refine PSim.same fun _ hw' => PSim.same fun ip _ => ?_
            have hw' := wr_le hw'
            have hl4 := np.len4 ip
            have hf4 : Frame lo st (s1.len + rdl) (store m2 s1.len rdata)
              (store (store m2 s1.len rdata) (s1.len + rdl) (np.v4 ip ++ [0])) := store_frame (Nat.le_refl _)
            have hz4 : store (store m2 s1.len rdata) (s1.len + rdl) (np.v4 ip ++ [0]) maxPacketLen = 0 :=
              store_zero hz3 (by
                simp only [List.length_append, List.length_cons, List.length_nil]; omega)
            have hft := hf3.trans (show s1.len ≤ s1.len + rdl by omega) hf4
            refine ⟨hi2.grow hft (by show s1.len ≤ _; omega) hz4, ⟨hn2.frame hft (by simp only; omega), rfl, rfl,
              rfl, hrl.symm, (hd3 _ (Nat.le_refl _)).frame hf4 (by simp only; omega), ⟨rfl, dat_store (by omega) ?_ ?_, np.nul4 ip⟩, hlow, h1'⟩,
              ((hk2 s1.pos).trans ⟨by show s1.len ≤ s1.len + rdl + 16; omega, hft⟩)⟩
            · simp only [List.length_append, List.length_cons, List.length_nil]; omega
            · simp only [List.length_append, List.length_cons, List.length_nil]; omega
        · rename_i h1'
          split
          · rename_i h28
            split
            · trivial
            · refine PSim.same fun _ hw' => PSim.same fun ip _ => ?_
              have hw' := wr_le hw'
              have hl4 := np.len6 ip
              have hf4 : Frame lo st (s1.len + rdl) (store m2 s1.len rdata)
                (store (store m2 s1.len rdata) (s1.len + rdl) (np.v6 ip ++ [0])) := store_frame (Nat.le_refl _)
              have hz4 : store (store m2 s1.len rdata) (s1.len + rdl) (np.v6 ip ++ [0]) maxPacketLen = 0 :=
                store_zero hz3 (by
                  simp only [List.length_append, List.length_cons, List.length_nil]; omega)
              have hft := hf3.trans (show s1.len ≤ s1.len + rdl by omega) hf4
              refine ⟨hi2.grow hft (by show s1.len ≤ _; omega) hz4, ⟨hn2.frame hft (by simp only; omega), rfl, rfl,
                rfl, hrl.symm, (hd3 _ (Nat.le_refl _)).frame hf4 (by simp only; omega), ⟨rfl, dat_store (by omega) ?_ ?_, np.nul6 ip⟩, hlow, h28⟩,
                ((hk2 s1.pos).trans ⟨by show s1.len ≤ s1.len + rdl + 46; omega, hft⟩)⟩
              · simp only [List.length_append, List.length_cons, List.length_nil]; omega
              · simp only [List.length_append, List.length_cons, List.length_nil]; omega
          · rename_i h28
            exact ⟨hi2.grow hf3 (by show s1.len ≤ _; omega) hz3, ⟨hn2.frame hf3 (by simp only; omega), rfl, rfl,
              rfl, hrl.symm, hd3 _ (Nat.le_refl _), trivial, hlow,
                ⟨h1', h28, fun e => hty (.inl e), fun e => hty (.inr (.inl e)), fun e => hty (.inr (.inr e)), h33⟩⟩,
              ((hk2 s1.pos).trans ⟨by show s1.len ≤ s1.len + rdl; omega, hf3⟩)⟩

/-- Records are where their structures say. -/
def RelRrs (lo st cap : Nat) (np : AddrText) (m : Mem) (len : Nat) : List RawRr → List Resource → Prop
  | [], [] => True
  | x :: xs, r :: rs => RelRr lo st cap np m len x r ∧ RelRrs lo st cap np m len xs rs
  | _, _ => False

theorem RelRrs.frame {lo st cap len len' : Nat} {np : AddrText} {m m' : Mem} (hf : Frame lo st len m m')
    (hl : len ≤ len') : ∀ {xs : List RawRr} {rs : List Resource}, RelRrs lo st cap np m len xs rs →
    RelRrs lo st cap np m' len' xs rs := by
  intro xs
  induction xs with
  | nil => intro rs h; cases rs <;> first | trivial | exact h.elim
  | cons x xs ih =>
    intro rs h
    cases rs with
    | nil => exact h.elim
    | cons r rs => exact ⟨h.1.frame hf hl, ih h.2⟩

theorem rrs_sim {b : RBuf} {cap lo st : Nat} {np : AddrText} {junk : Junk} : ∀ {n slot : Nat} {s : BState}
    {p : PState}, Inv lo st cap s p → lo ≤ slot → slot + 64 * n ≤ st →
    PSim (fun x y => Inv lo st cap x.2 y.2 ∧ RelRrs lo st cap np x.2.mem x.2.len x.1 y.1 ∧
      Kept lo st s x.2) (blockRrs b cap np junk slot n s) (parseRrs b cap slot n p) := by
  intro n
  induction n with
  | zero => intro slot s p hi _ _; exact ⟨hi, trivial, Kept.refl⟩
  | succ n ih =>
    intro slot s p hi h1 h2
    unfold blockRrs parseRrs
    refine PSim.bind (rr_sim hi h1 (by omega)) ?_
    rintro ⟨x, s1⟩ ⟨r, p1⟩ ⟨hi1, hr1, hk1⟩
    refine PSim.bind (ih hi1 (by omega) (by omega)) ?_
    rintro ⟨xs, s2⟩ ⟨rs, p2⟩ ⟨hi2, hr2, hk2⟩
    exact ⟨hi2, ⟨hr1.frame hk2.frame hk2.len, hr2⟩, hk1.trans hk2⟩

/-- A question is where its structure says. -/
structure RelQ (lo st cap : Nat) (m : Mem) (len : Nat) (x : RawQuestion) (q : Question) : Prop where
  name : Txt lo st cap m len x.name q.name
  type : x.type = q.type
  cls : x.cls = q.cls

/-- Questions are where their structures say. -/
def RelQs (lo st cap : Nat) (m : Mem) (len : Nat) : List RawQuestion → List Question → Prop
  | [], [] => True
  | x :: xs, r :: rs => RelQ lo st cap m len x r ∧ RelQs lo st cap m len xs rs
  | _, _ => False

theorem RelQs.frame {lo st cap len len' : Nat} {m m' : Mem} (hf : Frame lo st len m m')
    (hl : len ≤ len') : ∀ {xs : List RawQuestion} {rs : List Question}, RelQs lo st cap m len xs rs →
    RelQs lo st cap m' len' xs rs := by
  intro xs
  induction xs with
  | nil => intro rs h; cases rs <;> first | trivial | exact h.elim
  | cons x xs ih =>
    intro rs h
    cases rs with
    | nil => exact h.elim
    | cons r rs => exact ⟨⟨h.1.name.frame hf hl, h.1.type, h.1.cls⟩, ih h.2⟩

theorem qds_sim {b : RBuf} {cap st : Nat} {junk : Junk} : ∀ {n slot : Nat} {s : BState}
    {p : PState}, Inv 0 st cap s p → slot + 16 * n ≤ st →
    PSim (fun x y => Inv 0 st cap x.2 y.2 ∧ RelQs 0 st cap x.2.mem x.2.len x.1 y.1 ∧
      Kept 0 st s x.2) (blockQds b cap junk slot n s) (parseQds b cap slot n p) := by
  intro n
  induction n with
  | zero => intro slot s p hi _; exact ⟨hi, trivial, Kept.refl⟩
  | succ n ih =>
    intro slot s p hi h2
    unfold blockQds parseQds
    refine PSim.bind (label_sim hi) ?_
    rintro ⟨name, s1⟩ ⟨name', p1⟩ ⟨hi1, hn1, hk1, hmax⟩
    simp only at hi1 hn1 hk1
    refine PSim.same fun _ _ => ?_
    simp only
    have hst := hi.start
    have hsf : Frame 0 st s1.len s1.mem (store s1.mem slot (struct junk slot 16)) :=
      slot_frame (Nat.zero_le _) (by omega)
    have hz2 : store s1.mem slot (struct junk slot 16) maxPacketLen = 0 := by
      refine store_zero hi1.zero ?_
      have : (struct junk slot 16).length = 16 := by simp [struct]
      omega
    have hlab2 := hi1.labs.frame hsf (Nat.le_refl _)
    have hn2 := hn1.frame hsf (Nat.le_refl _)
    rw [← hi1.pos]
    refine PSim.same fun type _ => PSim.same fun cls _ => ?_
    have hi2 : Inv 0 st cap { s1 with pos := s1.pos + 4, mem := store s1.mem slot (struct junk slot 16) }
        { p1 with pos := s1.pos + 4 } := ⟨rfl, hi1.len, hi1.low, hi1.start, hlab2, hz2⟩
    refine PSim.bind (ih hi2 (by omega)) ?_
    rintro ⟨xs, s3⟩ ⟨rs, p3⟩ ⟨hi3, hr3, hk3⟩
    have hk2 : Kept 0 st s { s1 with pos := s1.pos + 4, mem := store s1.mem slot (struct junk slot 16) } :=
      ⟨hk1.len, hk1.frame.trans hk1.len hsf⟩
    exact ⟨hi3, ⟨⟨hn2.frame hk3.frame hk3.len, rfl, rfl⟩, hr3⟩, hk2.trans hk3⟩

/-- Texts of the questions stay below the structures of the records. -/
theorem Dat.move {st st' lo' cap len len' o : Nat} {m : Mem} {d : Bytes} (h : Dat 0 st cap m len o d)
    (hlo : len ≤ lo') (hl : len ≤ len') : Dat lo' st' cap m len' o d := by
  obtain ⟨h1, h2, h3, _⟩ := h
  exact ⟨h1, by omega, h3, .inl (by omega)⟩

theorem Labs.move {st st' lo' cap len len' : Nat} {m : Mem} (hlo : len ≤ lo') (hl : len ≤ len') :
    ∀ {os : List Nat} {ns : List Bytes}, Labs 0 st cap m len os ns → Labs lo' st' cap m len' os ns := by
  intro os
  induction os with
  | nil => intro ns h; cases ns <;> first | trivial | exact h.elim
  | cons o os ih =>
    intro ns h
    cases ns with
    | nil => exact h.elim
    | cons n ns => exact ⟨⟨h.1.1.move hlo hl, h.1.2⟩, ih h.2⟩

theorem RelQs.move {st st' lo' cap len len' : Nat} {m : Mem} (hlo : len ≤ lo') (hl : len ≤ len') :
    ∀ {os : List RawQuestion} {ns : List Question}, RelQs 0 st cap m len os ns →
    RelQs lo' st' cap m len' os ns := by
  intro os
  induction os with
  | nil => intro ns h; cases ns <;> first | trivial | exact h.elim
  | cons o os ih =>
    intro ns h
    cases ns with
    | nil => exact h.elim
    | cons n ns => exact ⟨⟨⟨h.1.name.1.move hlo hl, h.1.name.2⟩, h.1.type, h.1.cls⟩, ih h.2⟩

/-- Everything in a message is where its structures say. -/
structure RelMsg (cap : Nat) (np : AddrText) (x : RawMsg) (m : Msg) : Prop where
  id : x.id = m.id
  header : x.header = m.header
  zero : x.mem maxPacketLen = 0
  place : ∃ lo st len, RelQs lo st cap x.mem len x.qd m.qd ∧ RelRrs lo st cap np x.mem len x.an m.an ∧
    RelRrs lo st cap np x.mem len x.ns m.ns ∧ RelRrs lo st cap np x.mem len x.ar m.ar

theorem align8_le (n : Nat) : n ≤ align8 n := by unfold align8; omega

theorem body_sim {b : RBuf} {cap : Nat} {np : AddrText} {junk : Junk} {id : Nat} {h : Header} {c : Counts} :
    PSim (RelMsg cap np) (blockBody b cap np junk id h c) (parseBody b cap id h c) := by
  unfold blockBody parseBody
  have hi : Inv 0 (16 * c.qd) cap { pos := 12, len := 16 * c.qd, labels := [], mem := fun _ => 0 }
      { pos := 12, len := 16 * c.qd, cache := [] } :=
    ⟨rfl, rfl, Nat.zero_le _, Nat.le_refl _, trivial, rfl⟩
  refine PSim.bind (qds_sim hi (by omega)) ?_
  rintro ⟨qd, s⟩ ⟨qd', p⟩ ⟨hi1, hq1, _⟩
  simp only at hi1 hq1
  simp only
  rw [← hi1.len]
  have e1 := align8_le s.len
  have e2 := align8_le (align8 s.len + 64 * c.an)
  have e3 := align8_le (align8 (align8 s.len + 64 * c.an) + 64 * c.ns)
  generalize align8 (align8 (align8 s.len + 64 * c.an) + 64 * c.ns) = ar0 at *
  generalize align8 (align8 s.len + 64 * c.an) = ns0 at *
  generalize align8 s.len = an0 at *
  have hle : s.len ≤ ar0 + 64 * c.ar := by omega
  have hq2 : RelQs an0 (ar0 + 64 * c.ar) cap s.mem (ar0 + 64 * c.ar) qd qd' := hq1.move e1 hle
  have hi2 : Inv an0 (ar0 + 64 * c.ar) cap { s with len := ar0 + 64 * c.ar }
      { p with len := ar0 + 64 * c.ar } :=
    ⟨hi1.pos, rfl, by omega, Nat.le_refl _, hi1.labs.move e1 hle, hi1.zero⟩
  refine PSim.bind (rrs_sim hi2 (Nat.le_refl _) (by omega)) ?_
  rintro ⟨an, s3⟩ ⟨an', p3⟩ ⟨hi3, hr3, hk3⟩
  refine PSim.bind (rrs_sim hi3 (by omega) (by omega)) ?_
  rintro ⟨ns, s4⟩ ⟨ns', p4⟩ ⟨hi4, hr4, hk4⟩
  refine PSim.bind (rrs_sim hi4 (by omega) (by omega)) ?_
  rintro ⟨ar, s5⟩ ⟨ar', p5⟩ ⟨hi5, hr5, hk5⟩
  have k35 := hk4.trans hk5
  have k25 := hk3.trans k35
  exact ⟨rfl, rfl, hi5.zero, an0, ar0 + 64 * c.ar, s5.len, hq2.frame k25.frame k25.len,
    hr3.frame k35.frame k35.len, hr4.frame hk5.frame hk5.len, hr5⟩

theorem parse_sim {b : RBuf} {cap : Nat} {np : AddrText} {junk : Junk} :
    PSim (RelMsg cap np) (blockParse b cap np junk) (messageParse b cap) := by
  unfold blockParse messageParse
  refine PSim.same fun id _ => PSim.same fun f0 _ => PSim.same fun f1 _ => PSim.same fun qd _ => ?_
  split
  · trivial
  · refine PSim.same fun an _ => ?_
    split
    · trivial
    · refine PSim.same fun ns _ => ?_
      split
      · trivial
      · refine PSim.same fun ar _ => ?_
        split
        · trivial
        · exact body_sim

/-! ### The structures -/

theorem label_frame {b : RBuf} {cap o : Nat} {s s' : BState} (h : blockLabel b cap s = .ok (o, s')) :
    s.len ≤ s'.len ∧ ∀ i, i < s.len → s'.mem i = s.mem i := by
  unfold blockLabel at h
  split at h
  · cases h
  · obtain ⟨text, _, h⟩ := bind_ok h
    obtain ⟨pos, _, h⟩ := bind_ok h
    obtain ⟨_, _, h⟩ := bind_ok h
    obtain ⟨name, _, h⟩ := bind_ok h
    obtain ⟨f, _, h⟩ := bind_ok h
    split at h
    · cases h
      exact ⟨Nat.le_refl _, fun i hi => store_out (.inl hi)⟩
    · obtain ⟨ls, _, h⟩ := bind_ok h
      cases h
      exact ⟨by simp only; omega, fun i hi => store_out (.inl hi)⟩

/-- What parsing a record leaves alone. -/
def Apart (slot stop : Nat) (s s' : BState) : Prop :=
  s.len ≤ s'.len ∧ ∀ i, i < s.len → i < slot ∨ stop ≤ i → s'.mem i = s.mem i

theorem rr_slot {b : RBuf} {cap slot : Nat} {np : AddrText} {junk : Junk} {s s' : BState} {r : RawRr}
    (h : blockRr b cap np junk slot s = .ok (r, s')) (hs : slot + 64 ≤ s.len) :
    Apart slot (slot + 64) s s' ∧ ∀ k, k < 64 → s'.mem (slot + k) = junk slot k := by
  unfold blockRr at h
  obtain ⟨⟨name, s1⟩, h1, h⟩ := bind_ok h
  have hf1 := label_frame h1
  obtain ⟨_, _, h⟩ := bind_ok h
  simp only at h
  have hlen : (struct junk slot 64).length = 64 := by simp [struct]
  -- it is enough to look at what follows the store to the structure
  suffices hh : s1.len ≤ s'.len ∧ ∀ i, i < s1.len → s'.mem i = store s1.mem slot (struct junk slot 64) i by
    refine ⟨⟨by omega, fun i hi hp => ?_⟩, fun k hk => ?_⟩
    · rw [hh.2 i (by omega), store_out (by omega)]
      exact hf1.2 i hi
    · rw [hh.2 (slot + k) (by omega)]
      exact store_in (by simp [struct, List.getElem?_range hk])
  generalize store s1.mem slot (struct junk slot 64) = m2 at *
  obtain ⟨type, _, h⟩ := bind_ok h
  obtain ⟨cls, _, h⟩ := bind_ok h
  obtain ⟨ttl, _, h⟩ := bind_ok h
  obtain ⟨rdl, _, h⟩ := bind_ok h
  split at h
  · cases h
  · split at h
    · obtain ⟨⟨n, s3⟩, h3, h⟩ := bind_ok h
      cases h
      exact label_frame h3
    · split at h
      · obtain ⟨_, _, h⟩ := bind_ok h
        obtain ⟨_, _, h⟩ := bind_ok h
        obtain ⟨_, _, h⟩ := bind_ok h
        obtain ⟨⟨n, s3⟩, h3, h⟩ := bind_ok h
        cases h
        exact label_frame h3
      · obtain ⟨_, _, h⟩ := bind_ok h
        obtain ⟨rdata, _, h⟩ := bind_ok h
        split at h
        · split at h
          · cases h
          · obtain ⟨_, _, h⟩ := bind_ok h
            obtain ⟨ip, _, h⟩ := bind_ok h
            cases h
            exact ⟨by simp only; omega, fun i hi => by simp only; rw [store_out (.inl (by omega)), store_out (.inl hi)]⟩
        · split at h
          · split at h
            · cases h
            · obtain ⟨_, _, h⟩ := bind_ok h
              obtain ⟨ip, _, h⟩ := bind_ok h
              cases h
              exact ⟨by simp only; omega, fun i hi => by simp only; rw [store_out (.inl (by omega)), store_out (.inl hi)]⟩
          · cases h
            exact ⟨by simp only; omega, fun i hi => store_out (.inl hi)⟩

theorem rrs_slots {b : RBuf} {cap : Nat} {np : AddrText} {junk : Junk} : ∀ {n slot : Nat} {s s' : BState}
    {rs : List RawRr}, blockRrs b cap np junk slot n s = .ok (rs, s') → slot + 64 * n ≤ s.len →
    rs.length = n ∧ Apart slot (slot + 64 * n) s s' ∧
    ∀ i, i < n → ∀ k, k < 64 → s'.mem (slot + 64 * i + k) = junk (slot + 64 * i) k := by
  intro n
  induction n with
  | zero =>
    intro slot s s' rs h _
    cases h
    exact ⟨rfl, ⟨Nat.le_refl _, fun _ _ _ => rfl⟩, fun i hi => by omega⟩
  | succ n ih =>
    intro slot s s' rs h hs
    unfold blockRrs at h
    obtain ⟨⟨r, s1⟩, h1, h⟩ := bind_ok h
    obtain ⟨⟨rs', s2⟩, h2, h⟩ := bind_ok h
    cases h
    obtain ⟨ha, hk⟩ := rr_slot h1 (by omega)
    have hl := ha.1
    obtain ⟨e, hb, hj⟩ := ih h2 (by omega)
    refine ⟨by simp [e], ⟨Nat.le_trans hl hb.1, fun i hi hp => ?_⟩, fun i hi k hkk => ?_⟩
    · rw [hb.2 i (by omega) (by omega)]
      exact ha.2 i hi (by omega)
    · cases i with
      | zero =>
        simp only [Nat.mul_zero, Nat.add_zero]
        rw [hb.2 (slot + k) (by omega) (by omega)]
        exact hk k hkk
      | succ i =>
        have := hj i (by omega) k hkk
        rw [show slot + 64 * (i + 1) = slot + 64 + 64 * i by omega]
        exact this

theorem qds_slots {b : RBuf} {cap : Nat} {junk : Junk} : ∀ {n slot : Nat} {s s' : BState}
    {rs : List RawQuestion}, blockQds b cap junk slot n s = .ok (rs, s') → slot + 16 * n ≤ s.len →
    rs.length = n ∧ Apart slot (slot + 16 * n) s s' ∧
    ∀ i, i < n → ∀ k, k < 16 → s'.mem (slot + 16 * i + k) = junk (slot + 16 * i) k := by
  intro n
  induction n with
  | zero =>
    intro slot s s' rs h _
    cases h
    exact ⟨rfl, ⟨Nat.le_refl _, fun _ _ _ => rfl⟩, fun i hi => by omega⟩
  | succ n ih =>
    intro slot s s' rs h hs
    unfold blockQds at h
    obtain ⟨⟨name, s1⟩, h1, h⟩ := bind_ok h
    have hf1 := label_frame h1
    obtain ⟨_, _, h⟩ := bind_ok h
    obtain ⟨_, _, h⟩ := bind_ok h
    obtain ⟨_, _, h⟩ := bind_ok h
    obtain ⟨⟨rs', s2⟩, h2, h⟩ := bind_ok h
    cases h
    have hlen : (struct junk slot 16).length = 16 := by simp [struct]
    obtain ⟨e, hb, hj⟩ := ih h2 (by show _ ≤ s1.len; omega)
    have hb1 : s1.len ≤ s'.len := hb.1
    have hb2 : ∀ i, i < s1.len → i < slot + 16 ∨ slot + 16 + 16 * n ≤ i →
      s'.mem i = store s1.mem slot (struct junk slot 16) i := hb.2
    refine ⟨by simp [e], ⟨Nat.le_trans hf1.1 hb1, fun i hi hp => ?_⟩, fun i hi k hkk => ?_⟩
    · rw [hb2 i (by omega) (by omega), store_out (by omega)]
      exact hf1.2 i hi
    · cases i with
      | zero =>
        simp only [Nat.mul_zero, Nat.add_zero]
        rw [hb2 (slot + k) (by omega) (by omega)]
        exact store_in (by simp [struct, List.getElem?_range hkk])
      | succ i =>
        have := hj i (by omega) k hkk
        rw [show slot + 16 * (i + 1) = slot + 16 + 16 * i by omega]
        exact this

/-- All structures are whole at the end. -/
structure Whole (junk : Junk) (x : RawMsg) : Prop where
  qd : ∀ i, i < x.qd.length → ∀ k, k < 16 → x.mem (16 * i + k) = junk (16 * i) k
  an : ∀ i, i < x.an.length → ∀ k, k < 64 → x.mem (x.anAt + 64 * i + k) = junk (x.anAt + 64 * i) k
  ns : ∀ i, i < x.ns.length → ∀ k, k < 64 → x.mem (x.nsAt + 64 * i + k) = junk (x.nsAt + 64 * i) k
  ar : ∀ i, i < x.ar.length → ∀ k, k < 64 → x.mem (x.arAt + 64 * i + k) = junk (x.arAt + 64 * i) k
  aligned : x.anAt % 8 = 0 ∧ x.nsAt % 8 = 0 ∧ x.arAt % 8 = 0

theorem align8_mod (n : Nat) : align8 n % 8 = 0 := by unfold align8; omega

theorem body_whole {b : RBuf} {cap : Nat} {np : AddrText} {junk : Junk} {id : Nat} {h : Header} {c : Counts}
    {x : RawMsg} (hx : blockBody b cap np junk id h c = .ok x) : Whole junk x := by
  unfold blockBody at hx
  obtain ⟨⟨qd, s⟩, h1, hx⟩ := bind_ok hx
  obtain ⟨q1, q2, q3⟩ := qds_slots h1 (by simp only; omega)
  have hq2 : 16 * c.qd ≤ s.len := q2.1
  simp only at hx
  have e1 := align8_le s.len
  have e2 := align8_le (align8 s.len + 64 * c.an)
  have e3 := align8_le (align8 (align8 s.len + 64 * c.an) + 64 * c.ns)
  have m1 := align8_mod s.len
  have m2 := align8_mod (align8 s.len + 64 * c.an)
  have m3 := align8_mod (align8 (align8 s.len + 64 * c.an) + 64 * c.ns)
  generalize align8 (align8 (align8 s.len + 64 * c.an) + 64 * c.ns) = ar0 at *
  generalize align8 (align8 s.len + 64 * c.an) = ns0 at *
  generalize align8 s.len = an0 at *
  obtain ⟨⟨an, s3⟩, h3, hx⟩ := bind_ok hx
  obtain ⟨a1, a2, a3⟩ := rrs_slots h3 (by simp only; omega)
  have ha2 : ar0 + 64 * c.ar ≤ s3.len := a2.1
  have ha3 : ∀ i, i < ar0 + 64 * c.ar → i < an0 ∨ an0 + 64 * c.an ≤ i → s3.mem i = s.mem i := a2.2
  obtain ⟨⟨ns, s4⟩, h4, hx⟩ := bind_ok hx
  obtain ⟨b1, b2, b3⟩ := rrs_slots h4 (by simp only; omega)
  have hb2 : s3.len ≤ s4.len := b2.1
  have hb3 : ∀ i, i < s3.len → i < ns0 ∨ ns0 + 64 * c.ns ≤ i → s4.mem i = s3.mem i := b2.2
  obtain ⟨⟨ar, s5⟩, h5, hx⟩ := bind_ok hx
  obtain ⟨c1, c2, c3⟩ := rrs_slots h5 (by simp only; omega)
  have hc3 : ∀ i, i < s4.len → i < ar0 ∨ ar0 + 64 * c.ar ≤ i → s5.mem i = s4.mem i := c2.2
  cases hx
  refine ⟨?_, ?_, ?_, ?_, m1, m2, m3⟩
  · intro i hi k hk
    simp only at hi ⊢
    rw [hc3 _ (by omega) (by omega), hb3 _ (by omega) (by omega), ha3 _ (by omega) (by omega)]
    have := q3 i (by omega) k hk
    simpa using this
  · intro i hi k hk
    simp only at hi ⊢
    rw [hc3 _ (by omega) (by omega), hb3 _ (by omega) (by omega)]
    exact a3 i (by omega) k hk
  · intro i hi k hk
    simp only at hi ⊢
    rw [hc3 _ (by omega) (by omega)]
    exact b3 i (by omega) k hk
  · intro i hi k hk
    exact c3 i (by simp only at hi; omega) k hk

theorem parse_whole {b : RBuf} {cap : Nat} {np : AddrText} {junk : Junk} {x : RawMsg}
    (hx : blockParse b cap np junk = .ok x) : Whole junk x := by
  unfold blockParse at hx
  obtain ⟨id, _, hx⟩ := bind_ok hx
  obtain ⟨f0, _, hx⟩ := bind_ok hx
  obtain ⟨f1, _, hx⟩ := bind_ok hx
  obtain ⟨qd, _, hx⟩ := bind_ok hx
  split at hx
  · cases hx
  · obtain ⟨an, _, hx⟩ := bind_ok hx
    split at hx
    · cases hx
    · obtain ⟨ns, _, hx⟩ := bind_ok hx
      split at hx
      · cases hx
      · obtain ⟨ar, _, hx⟩ := bind_ok hx
        split at hx
        · cases hx
        · exact body_whole hx

end Mdns.Received
