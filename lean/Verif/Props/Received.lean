import Verif.Lemmas.Received
import Verif.Model.Rx

/-!
# C99, C100: what a parsed message points at, and what is logged about it
-/

namespace Mdns.Received

/-! ### Specification: a message as its reader sees it, through the pointers -/

/-- The data of a record, read through its pointers. -/
def viewKnown (cap : Nat) (m : Mem) : RawKnown → PRes Known
  | .none => .ok .none
  | .a _ ip => .ok (.a ip)
  | .aaaa _ ip => .ok (.aaaa ip)
  | .name n => do
    let n ← strAt cap m n
    .ok (.name n)
  | .srv p w o n => do
    let n ← strAt cap m n
    .ok (.srv p w o n)

/-- A record, read through its pointers. -/
def viewRr (cap : Nat) (m : Mem) (x : RawRr) : PRes Resource := do
  let name ← strAt cap m x.name
  let rdata ← bytesAt cap m x.rdata x.rdlength
  let known ← viewKnown cap m x.known
  .ok ⟨name, x.type, x.cls, x.ttl, rdata, known⟩

/-- Records, read through their pointers. -/
def viewRrs (cap : Nat) (m : Mem) : List RawRr → PRes (List Resource)
  | [] => .ok []
  | x :: xs => do
    let r ← viewRr cap m x
    let rs ← viewRrs cap m xs
    .ok (r :: rs)

/-- Questions, read through their pointers. -/
def viewQs (cap : Nat) (m : Mem) : List RawQuestion → PRes (List Question)
  | [] => .ok []
  | x :: xs => do
    let name ← strAt cap m x.name
    let rs ← viewQs cap m xs
    .ok (⟨name, x.type, x.cls⟩ :: rs)

/-- A message, read through its pointers after everything has been stored. -/
def viewMsg (cap : Nat) (x : RawMsg) : PRes Msg := do
  let qd ← viewQs cap x.mem x.qd
  let an ← viewRrs cap x.mem x.an
  let ns ← viewRrs cap x.mem x.ns
  let ar ← viewRrs cap x.mem x.ar
  .ok ⟨x.id, x.header, qd, an, ns, ar⟩

/-- What the log is to say about a record other than TXT. -/
def lineOf (np : AddrText) (r : Resource) : Bytes :=
  sGot ++ r.name ++
    match r.known with
    | .a ip => sA ++ np.v4 ip ++ sArrow ++ np.v4 ip
    | .aaaa ip => sAaaa ++ np.v6 ip ++ sArrow ++ np.v6 ip
    | .name n => (if r.type = 2 then sNs else if r.type = 5 then sCname else sPtr) ++ n
    | .srv p w o n => sSrv ++ CLib.decimal p ++ [0x20] ++ CLib.decimal w ++ [0x20] ++ CLib.decimal o ++ [0x20] ++ n
    | .none => sUnknown

/-! ### Reading back -/

theorem view_rr {lo st cap len : Nat} {np : AddrText} {m : Mem} {x : RawRr} {r : Resource}
    (h : RelRr lo st cap np m len x r) : viewRr cap m x = .ok r := by
  have hk : viewKnown cap m x.known = .ok r.known := by
    have hk := h.known
    generalize x.known = k at hk
    generalize r.known = k' at hk
    cases k <;> cases k' <;> try exact hk.elim
    · rfl
    · simp only [viewKnown, hk.1]
    · simp only [viewKnown, hk.1]
    · simp only [viewKnown, Txt.read hk, bind, PRes.bind]
    · obtain ⟨rfl, rfl, rfl, hn⟩ := hk
      simp only [viewKnown, Txt.read hn, bind, PRes.bind]
  simp only [viewRr, h.name.read, h.rdlength, h.rdata.read, hk, bind, PRes.bind, h.type, h.cls, h.ttl]

theorem view_rrs {lo st cap len : Nat} {np : AddrText} {m : Mem} : ∀ {xs : List RawRr} {rs : List Resource},
    RelRrs lo st cap np m len xs rs → viewRrs cap m xs = .ok rs := by
  intro xs
  induction xs with
  | nil => intro rs h; cases rs <;> first | rfl | exact h.elim
  | cons x xs ih =>
    intro rs h
    cases rs with
    | nil => exact h.elim
    | cons r rs => simp only [viewRrs, view_rr h.1, ih h.2, bind, PRes.bind]

theorem view_qs {lo st cap len : Nat} {m : Mem} : ∀ {xs : List RawQuestion} {rs : List Question},
    RelQs lo st cap m len xs rs → viewQs cap m xs = .ok rs := by
  intro xs
  induction xs with
  | nil => intro rs h; cases rs <;> first | rfl | exact h.elim
  | cons x xs ih =>
    intro rs h
    cases rs with
    | nil => exact h.elim
    | cons r rs => simp only [viewQs, h.1.name.read, ih h.2, bind, PRes.bind, h.1.type, h.1.cls]

/-- **C99.** Whatever is received: the message that the parser hands over, read
through its pointers when everything has been stored, has exactly the names and
data that parsing each part by itself gives.  No part is overwritten by a later
one, whatever the structures hold. -/
theorem C99_intact (b : RBuf) (cap : Nat) (np : AddrText) (junk : Junk) :
    (blockParse b cap np junk >>= viewMsg cap) = messageParse b cap := by
  have h := parse_sim (b := b) (cap := cap) (np := np) (junk := junk)
  cases hx : blockParse b cap np junk <;> cases hy : messageParse b cap <;> rw [hx, hy] at h <;>
    first | rfl | exact h.elim | skip
  rename_i x m
  obtain ⟨lo, st, len, h1, h2, h3, h4⟩ := h.place
  show viewMsg cap x = _
  simp only [viewMsg, view_qs h1, view_rrs h2, view_rrs h3, view_rrs h4, bind, PRes.bind, h.id, h.header]

/-- **C99, structures.** Each structure of a question or record is whole at the
end, with the bytes that were stored to it and at an address where it may lie. -/
theorem C99_structures (b : RBuf) (cap : Nat) (np : AddrText) (junk : Junk) (x : RawMsg)
    (hx : blockParse b cap np junk = .ok x) :
    (∀ i, i < x.qd.length → ∀ k, k < 16 → x.mem (16 * i + k) = junk (16 * i) k) ∧
    (∀ i, i < x.an.length → ∀ k, k < 64 → x.mem (x.anAt + 64 * i + k) = junk (x.anAt + 64 * i) k) ∧
    (∀ i, i < x.ns.length → ∀ k, k < 64 → x.mem (x.nsAt + 64 * i + k) = junk (x.nsAt + 64 * i) k) ∧
    (∀ i, i < x.ar.length → ∀ k, k < 64 → x.mem (x.arAt + 64 * i + k) = junk (x.arAt + 64 * i) k) ∧
    x.anAt % 8 = 0 ∧ x.nsAt % 8 = 0 ∧ x.arAt % 8 = 0 := by
  have h := parse_whole hx
  exact ⟨h.qd, h.an, h.ns, h.ar, h.aligned⟩

/-! ### What is logged -/

theorem rel_at {lo st cap len : Nat} {np : AddrText} {m : Mem} : ∀ {xs : List RawRr} {rs : List Resource},
    RelRrs lo st cap np m len xs rs → ∀ (i : Nat) (x : RawRr), xs[i]? = some x →
    ∃ r, rs[i]? = some r ∧ RelRr lo st cap np m len x r := by
  intro xs
  induction xs with
  | nil => intro rs _ i x hx; simp at hx
  | cons a xs ih =>
    intro rs h i x hx
    cases rs with
    | nil => exact h.elim
    | cons r rs =>
      cases i with
      | zero => simp only [List.getElem?_cons_zero, Option.some.injEq] at hx; exact ⟨r, rfl, hx ▸ h.1⟩
      | succ i => simpa using ih h.2 i x (by simpa using hx)

/-- Reading a string ends at the latest at a zero. -/
theorem strF_ends {m : Mem} : ∀ {n o z : Nat}, m z = 0 → o ≤ z → z < o + n → ∃ t, strF m n o = .ok t := by
  intro n
  induction n with
  | zero => intro o z _ _ h; omega
  | succ n ih =>
    intro o z hz h1 h2
    unfold strF
    split
    · exact ⟨[], rfl⟩
    · have hne : o ≠ z := fun e => by subst e; contradiction
      obtain ⟨t, ht⟩ := ih hz (show o + 1 ≤ z by omega) (by omega)
      exact ⟨m o :: t, by rw [ht]; rfl⟩

/-- What is read begins with the data that lies there. -/
theorem strF_prefix {m : Mem} : ∀ {d : Bytes} {n o : Nat} {t : Bytes}, (∀ j x, d[j]? = some x → m (o + j) = x) →
    strF m n o = .ok t → cstr d <+: t ∧ (0 ∈ d → t = cstr d) := by
  intro d
  induction d with
  | nil => intro n o t _ _; exact ⟨by simp [cstr], by simp⟩
  | cons a d ih =>
    intro n o t h ht
    cases n with
    | zero => cases ht
    | succ n =>
      have ha := h 0 a rfl
      simp only [Nat.add_zero] at ha
      unfold strF at ht
      split at ht
      · rename_i h0
        cases ht
        have : a = 0 := by rw [← ha]; exact h0
        subst this
        simp [cstr]
      · rename_i h0
        rw [ha] at h0 ht
        cases hr : strF m n (o + 1) with
        | ok t' =>
          rw [hr] at ht
          cases ht
          have ih := ih (fun j x hj => by
            rw [show o + 1 + j = o + (j + 1) by omega]; exact h (j + 1) x (by simpa using hj)) hr
          have hc : cstr (a :: d) = a :: cstr d := by simp [cstr, h0]
          rw [hc]
          refine ⟨by simpa using ih.1, fun hm => ?_⟩
          rw [ih.2 ((List.mem_cons.1 hm).resolve_left fun e => h0 e.symm)]
        | fail => rw [hr] at ht; cases ht
        | oob => rw [hr] at ht; cases ht
        | wub => rw [hr] at ht; cases ht
        | hang => rw [hr] at ht; cases ht

/-- **C100, reads.** Whatever is received: to log an answer, the daemon reads
only inside the message. -/
theorem C100_log_inside (b : RBuf) (np : AddrText) (junk : Junk) (x : RawMsg)
    (hx : blockParse b structCap np junk = .ok x) (r : RawRr) (hr : r ∈ x.an) :
    ∃ line, recordReceived structCap np x.mem r = .ok line := by
  have h := parse_sim (b := b) (cap := structCap) (np := np) (junk := junk)
  rw [hx] at h
  cases hy : messageParse b structCap <;> rw [hy] at h <;> try exact h.elim
  rename_i m
  obtain ⟨lo, st, len, _, h2, _, _⟩ := h.place
  obtain ⟨i, hi⟩ := List.getElem?_of_mem hr
  obtain ⟨v, _, hv⟩ := rel_at h2 i r hi
  have hz := h.zero
  obtain ⟨t, ht⟩ : ∃ t, strAt structCap x.mem r.rdata = .ok t :=
    strF_ends hz hv.low (by have := hv.low; show 65535 < _; simp only [structCap]; omega)
  unfold recordReceived
  rw [hv.name.read]
  simp only [bind, PRes.bind]
  have hk := hv.known
  split
  · rename_i hk'
    rw [hk'] at hk
    cases hk2 : v.known <;> rw [hk2] at hk <;> try exact hk.elim
    rw [hk.2.read]
    exact ⟨_, rfl⟩
  · rename_i hk'
    rw [hk'] at hk
    cases hk2 : v.known <;> rw [hk2] at hk <;> try exact hk.elim
    rw [hk.2.read]
    exact ⟨_, rfl⟩
  · rename_i hk'
    rw [hk'] at hk
    cases hk2 : v.known <;> rw [hk2] at hk <;> try exact hk.elim
    rw [Txt.read hk]
    exact ⟨_, rfl⟩
  · rename_i hk'
    rw [hk'] at hk
    cases hk2 : v.known <;> rw [hk2] at hk <;> try exact hk.elim
    rw [Txt.read hk]
    exact ⟨_, rfl⟩
  · rename_i hk'
    rw [hk'] at hk
    cases hk2 : v.known <;> rw [hk2] at hk <;> try exact hk.elim
    rw [Txt.read hk]
    exact ⟨_, rfl⟩
  · rw [ht]
    exact ⟨_, rfl⟩
  · rename_i hk'
    rw [hk'] at hk
    cases hk2 : v.known <;> rw [hk2] at hk <;> try exact hk.elim
    rw [hk.2.2.2.read]
    exact ⟨_, rfl⟩
  · exact ⟨_, rfl⟩

/-- **C100, text (partial).** Every answer is logged with its name and its data.
The text of a TXT record is shown up to its first zero byte.  Missing from the
full claim: without a zero byte in the text, the log goes on with what lies
behind it, see `C100_next_counterexample`. -/
theorem C100_log_says_partial (b : RBuf) (np : AddrText) (junk : Junk) (x : RawMsg) (m : Msg)
    (hx : blockParse b structCap np junk = .ok x) (hm : messageParse b structCap = .ok m)
    (i : Nat) (r : RawRr) (v : Resource) (hr : x.an[i]? = some r) (hv : m.an[i]? = some v)
    (line : Bytes) (hl : recordReceived structCap np x.mem r = .ok line) :
    (v.type ≠ 16 → line = lineOf np v) ∧
    (v.type = 16 → ∃ t, line = sGot ++ v.name ++ sTxt ++ t ∧ cstr v.rdata <+: t ∧
      (0 ∈ v.rdata → t = cstr v.rdata)) := by
  have h := parse_sim (b := b) (cap := structCap) (np := np) (junk := junk)
  rw [hx, hm] at h
  obtain ⟨lo, st, len, _, h2, _, _⟩ := h.place
  obtain ⟨v', hv', hR⟩ := rel_at h2 i r hr
  rw [hv] at hv'
  cases hv'
  have hk := hR.known
  have hty := hR.typed
  unfold recordReceived at hl
  rw [hR.name.read, hR.type] at hl
  simp only [bind, PRes.bind] at hl
  unfold Typed at hty
  unfold lineOf
  cases hkv : v.known <;> rw [hkv] at hk hty <;> cases hkr : r.known <;> rw [hkr] at hk hl <;>
    try exact hk.elim
  · by_cases h16 : v.type = 16
    · refine ⟨fun h => absurd h16 h, fun _ => ?_⟩
      simp only [h16] at hl
      cases ht : strAt structCap x.mem r.rdata with
      | ok t =>
        rw [ht] at hl
        cases hl
        exact ⟨t, rfl, strF_prefix hR.rdata.1 ht⟩
      | fail => rw [ht] at hl; cases hl
      | oob => rw [ht] at hl; cases hl
      | wub => rw [ht] at hl; cases hl
      | hang => rw [ht] at hl; cases hl
    · refine ⟨fun _ => ?_, fun h => absurd h h16⟩
      split at hl <;> simp_all
  · simp only [hty, hk.2.read] at hl
    cases hl
    refine ⟨fun _ => by simp [hk.1], fun h => by omega⟩
  · simp only [hty, hk.2.read] at hl
    cases hl
    refine ⟨fun _ => by simp [hk.1], fun h => by omega⟩
  · rcases hty with e | e | e
    · simp only [e, Txt.read hk] at hl
      cases hl
      exact ⟨fun _ => by simp [e], fun h => by omega⟩
    · simp only [e, Txt.read hk] at hl
      cases hl
      exact ⟨fun _ => by simp [e], fun h => by omega⟩
    · simp only [e, Txt.read hk] at hl
      cases hl
      exact ⟨fun _ => by simp [e], fun h => by omega⟩
  · obtain ⟨rfl, rfl, rfl, hn⟩ := hk
    simp only [hty, hn.read] at hl
    cases hl
    exact ⟨fun _ => by simp, fun h => by omega⟩

/-! ### Witnesses -/

/-- Any texts for addresses. -/
def someText : AddrText := ⟨fun _ => [0x31], fun _ => [0x3A, 0x3A], by simp, by simp, by simp, by simp⟩

/-- Two TXT records: `a.` with the string "hi", and `b.` with the string "pw". -/
def twoTxt : Bytes :=
  [0, 0, 0x84, 0, 0, 0, 0, 2, 0, 0, 0, 0] ++
    [1, 0x61, 0, 0, 16, 0, 1, 0, 0, 0, 60, 0, 3, 2, 0x68, 0x69] ++
    [1, 0x62, 0, 0, 16, 0, 1, 0, 0, 0, 60, 0, 3, 2, 0x70, 0x77]

/-- The lines logged for the answers of a datagram. -/
def lines (d : Bytes) : PRes (List (PRes Bytes)) := do
  let x ← blockParse (RBuf.ofBytes recvSize d) structCap someText (fun _ _ => 0xFF)
  .ok (x.an.map (recordReceived structCap someText x.mem))

/-- The text of a TXT record is not all that is logged: the name of the record
behind it follows ("\x02hib." instead of "\x02hi"). -/
theorem C100_next_counterexample :
    lines twoTxt = .ok [
      .ok (sGot ++ [0x61, 0x2E] ++ sTxt ++ [2, 0x68, 0x69, 0x62, 0x2E]),
      .ok (sGot ++ [0x62, 0x2E] ++ sTxt ++ [2, 0x70, 0x77])] := by
  decide +kernel

/-- The hypotheses are met: a question, an address, and a service that uses the
name of the question, with a text that has a zero byte. -/
example : lines ([0, 0, 0x84, 0, 0, 1, 0, 3, 0, 0, 0, 0] ++ [1, 0x61, 0, 0, 1, 0, 1] ++
      [0xC0, 12, 0, 1, 0, 1, 0, 0, 0, 60, 0, 4, 10, 0, 0, 1] ++
      [0xC0, 12, 0, 33, 0, 1, 0, 0, 0, 60, 0, 8, 0, 0, 0, 0, 0, 80, 0xC0, 12] ++
      [1, 0x62, 0, 0, 16, 0, 1, 0, 0, 0, 60, 0, 2, 1, 0]) = .ok [
    .ok (sGot ++ [0x61, 0x2E] ++ sA ++ [0x31] ++ sArrow ++ [0x31]),
    .ok (sGot ++ [0x61, 0x2E] ++ sSrv ++ [0x30, 0x20, 0x30, 0x20, 0x38, 0x30, 0x20, 0x61, 0x2E]),
    .ok (sGot ++ [0x62, 0x2E] ++ sTxt ++ [1])] := by
  decide +kernel

end Mdns.Received
