import Verif.Lemmas.Out

/-!
# The whole of `mdnsd_out`
-/

namespace Mdns

open M

/-! ### Frames -/

/-- Everything but the records, the pending unicast answers and the three timers. -/
def Core.recfree (c : Core) : Core :=
  { c with recs := fun _ => none, published := fun _ => [], uanswers := [], publish := {}, pause := {}, probe := {} }

theorem CInv.congr {c c' : Core} (h : CInv c) (e1 : c'.cache = c.cache) (e2 : c'.qs = c.qs) (e3 : c'.nextq = c.nextq)
    (e4 : c'.queries = c.queries) (e5 : c'.qlist = c.qlist) (e6 : c'.log = c.log) : CInv c' := by
  constructor <;> (try rw [e1]) <;> (try rw [e2]) <;> (try rw [e3]) <;> (try rw [e4]) <;> (try rw [e5]) <;> (try rw [e6])
  · exact h.qmem
  · exact h.qlive
  · exact h.qlist
  · exact h.qnodup
  · exact h.lnodup
  · exact h.quniq
  · exact h.qbound
  · exact h.cbucket
  · exact h.cq
  · exact h.cuniq
  · exact h.tcb
  · exact h.tlog

theorem CInv.recfree {c c' : Core} (h : CInv c) (e : c'.recfree = c.recfree) : CInv c' :=
  h.congr (congrArg Core.cache e : c'.recfree.cache = c.recfree.cache) (congrArg Core.qs e : c'.recfree.qs = c.recfree.qs)
    (congrArg Core.nextq e : c'.recfree.nextq = c.recfree.nextq)
    (congrArg Core.queries e : c'.recfree.queries = c.recfree.queries)
    (congrArg Core.qlist e : c'.recfree.qlist = c.recfree.qlist) (congrArg Core.log e : c'.recfree.log = c.recfree.log)

theorem recfree_now {c c' : Core} (e : c'.recfree = c.recfree) : c'.now = c.now :=
  (congrArg Core.now e : c'.recfree.now = c.recfree.now)
theorem recfree_frame {c c' : Core} (e : c'.recfree = c.recfree) : c'.frame = c.frame :=
  (congrArg Core.frame e : c'.recfree.frame = c.recfree.frame)
theorem recfree_cls {c c' : Core} (e : c'.recfree = c.recfree) : c'.cls = c.cls :=
  (congrArg Core.cls e : c'.recfree.cls = c.recfree.cls)
theorem recfree_disco {c c' : Core} (e : c'.recfree = c.recfree) : c'.disco = c.disco :=
  (congrArg Core.disco e : c'.recfree.disco = c.recfree.disco)
theorem recfree_log {c c' : Core} (e : c'.recfree = c.recfree) : c'.log = c.log :=
  (congrArg Core.log e : c'.recfree.log = c.recfree.log)

theorem RInv.rest {c c' : Core} {l : Lists} (h : RInv c l) (e : c'.rest = c.rest) : RInv c' l :=
  h.congr (congrArg Core.recs e : c'.rest.recs = c.rest.recs)
    (congrArg Core.published e : c'.rest.published = c.rest.published)
    (congrArg Core.uanswers e : c'.rest.uanswers = c.rest.uanswers)

theorem ROut.recfree {w : W} {s t : OSt} (n : ROut w s t) : t.c.recfree = s.c.recfree := by
  induction n with
  | empty h => rfl
  | full h => rfl
  | skip _ _ _ _ _ _ ih => exact ih
  | send _ _ _ _ _ _ _ ih => exact ih
  | bye _ _ _ _ _ _ _ ih => exact ih

theorem PubL.recfree {pre suf : List Nat} {s t : OSt} (n : PubL pre suf s t) : t.c.recfree = s.c.recfree := by
  induction n with
  | done h => rfl
  | full h => rfl
  | keep _ _ _ _ _ _ _ ih => exact ih
  | last _ _ _ _ _ _ _ ih => exact ih
  | bye _ _ _ _ _ _ ih => exact ih

theorem ProbeA.recfree {pre suf : List Nat} {s t : OSt} (n : ProbeA pre suf s t) : t.c.recfree = s.c.recfree := by
  induction n with
  | done h => rfl
  | verified _ _ _ _ _ ih => exact ih
  | ask _ _ _ _ _ ih => exact ih

theorem ProbeB.recfree {pre suf : List Nat} {s t : OSt} (n : ProbeB pre suf s t) : t.c.recfree = s.c.recfree := by
  induction n with
  | done h => rfl
  | propose _ _ _ _ _ ih => exact ih

/-! ### Records answered -/

/-- The records listed as answered exist and are not being withdrawn. -/
def SeenOk (c : Core) (seen : List Nat) : Prop := ∀ r ∈ seen, ∃ x, c.recs r = some x ∧ x.rr.ttl ≠ 0

theorem SeenOk.nil (c : Core) : SeenOk c [] := fun _ m => by cases m

theorem mem_answeredAdd {seen : List Nat} {r s : Nat} (m : s ∈ answeredAdd seen r) : s ∈ seen ∨ s = r := by
  unfold answeredAdd at m
  split at m
  · simpa using m
  · exact .inl m

theorem SeenOk.set {c : Core} {seen : List Nat} (h : SeenOk c seen) {r : Nat} {x' : Rec} {c' : Core}
    (hc : c'.recs = upd c.recs r (some x')) (ht : x'.rr.ttl ≠ 0) : SeenOk c' (answeredAdd seen r) := by
  intro s m
  rw [hc]
  by_cases e : s = r
  · subst e
    exact ⟨x', upd_same .., ht⟩
  · rw [upd_other _ _ _ _ e]
    rcases mem_answeredAdd m with m | m
    · exact h s m
    · exact absurd m e

theorem SeenOk.drop {c : Core} {seen : List Nat} (h : SeenOk c seen) {r : Nat} {x : Rec} (hx : c.recs r = some x)
    (ht : x.rr.ttl = 0) : SeenOk (c.dropRec r x) seen := by
  intro s m
  obtain ⟨y, hy, h0⟩ := h s m
  have e : s ≠ r := by
    rintro rfl
    rw [hx] at hy
    cases hy
    exact h0 ht
  exact ⟨y, by rw [← hy]; exact upd_other _ _ _ _ e, h0⟩

theorem ROut.seenOk {w : W} {s t : OSt} (n : ROut w s t) (h : SeenOk s.c s.seen) : SeenOk t.c t.seen := by
  induction n with
  | empty _ => exact h
  | full _ => exact h
  | skip _ _ _ _ _ _ ih => exact ih h
  | send _ _ hx _ _ ht _ ih => exact ih (h.set rfl ht)
  | bye _ _ hx _ _ ht _ ih => exact ih (h.drop hx ht)

theorem PubL.seenOk {pre suf : List Nat} {s t : OSt} (n : PubL pre suf s t) (h : SeenOk s.c s.seen) :
    SeenOk t.c t.seen := by
  induction n with
  | done _ => exact h
  | full _ => exact h
  | keep _ _ _ _ ht _ _ ih => exact ih (h.set rfl ht)
  | last _ _ _ _ ht _ _ ih => exact ih (h.set rfl ht)
  | bye _ _ hx _ ht _ ih => exact ih (h.drop hx ht)

/-! ### Additional records -/

/-- Additional records put in a message, each for the reason `J`. -/
inductive AddL (c : Core) (J : Nat → Prop) : Out → List Nat → Out → List Nat → Prop
  | nil {m : Out} {s : List Nat} : AddL c J m s m s
  | add {m m1 : Out} {s s1 : List Nat} {r : Nat} {x : Rec} (n : AddL c J m s m1 s1) (hn : r ∉ s1)
      (hx : c.recs r = some x) (hf : m1.len + rrLen x.rr < c.frame) (j : J r) :
      AddL c J m s (m1.put .ar r x.rr (x.cls c.cls)) (answeredAdd s1 r)

theorem AddL.trans {c : Core} {J : Nat → Prop} {m m1 m2 : Out} {s s1 s2 : List Nat} (h : AddL c J m s m1 s1)
    (h' : AddL c J m1 s1 m2 s2) : AddL c J m s m2 s2 := by
  induction h' with
  | nil => exact h
  | add _ hn hx hf j ih => exact .add (ih h) hn hx hf j

theorem AddL.mono {c : Core} {J J' : Nat → Prop} (hj : ∀ r, J r → J' r) {m m1 : Out} {s s1 : List Nat}
    (h : AddL c J m s m1 s1) : AddL c J' m s m1 s1 := by
  induction h with
  | nil => exact .nil
  | add _ hn hx hf j ih => exact .add ih hn hx hf (hj _ j)

/-- An address record of a host. -/
def IsAddr (c : Core) (host : Bytes) (r : Nat) : Prop :=
  ∃ x, c.recs r = some x ∧ x.rr.name = host ∧ (x.rr.type = 1 ∨ x.rr.type = 28)

/-- Why a record `r` may accompany the answer `r0`: an address of the target host of a service,
or the service and text records of the instance a pointer names, or an address of the
target host of such a service record. -/
def Extra (c : Core) (r0 r : Nat) : Prop :=
  ∃ x0, c.recs r0 = some x0 ∧
    ((x0.rr.type = 33 ∧ ∃ h, x0.rr.rdname = some h ∧ IsAddr c h r) ∨
      (x0.rr.type = 12 ∧ x0.rr.name ≠ discoName ∧ ∃ n, x0.rr.rdname = some n ∧
        ((∃ x, c.recs r = some x ∧ x.rr.name = n ∧ (x.rr.type = 33 ∨ x.rr.type = 16)) ∨
          ∃ r1 x1 h, c.recs r1 = some x1 ∧ x1.rr.name = n ∧ x1.rr.type = 33 ∧ x1.rr.rdname = some h ∧
            IsAddr c h r)))

theorem ar_ok {c : Core} {l : Lists} {J : Nat → Prop} {m : Out} {s : List Nat} {r : Nat} {x : Rec}
    (hx : c.recs r = some x) (j : J r) : ∃ m' s', ar m s r ⟨c, l⟩ = .ok ((m', s'), ⟨c, l⟩) ∧ AddL c J m s m' s' := by
  unfold ar
  split
  · exact ⟨m, s, rfl, .nil⟩
  · rename_i hn
    rw [M.bind_ok core_ok, M.bind_ok (getRec_ok hx)]
    split
    · exact ⟨m, s, rfl, .nil⟩
    · rename_i hf
      exact ⟨_, _, rfl, .add .nil hn hx (by omega) j⟩

theorem arAddrLoop_ok {c : Core} {l : Lists} {host : Bytes} : ∀ (rs : List Nat) (m : Out) (s : List Nat),
    (∀ r ∈ rs, ∃ x, c.recs r = some x) →
    ∃ m' s', arAddrLoop host rs m s ⟨c, l⟩ = .ok ((m', s'), ⟨c, l⟩) ∧ AddL c (IsAddr c host) m s m' s'
  | [], m, s, _ => ⟨m, s, rfl, .nil⟩
  | r :: rs, m, s, h => by
    obtain ⟨x, hx⟩ := h r (by simp)
    have h' : ∀ r ∈ rs, ∃ x, c.recs r = some x := fun r' m' => h r' (by simp [m'])
    unfold arAddrLoop
    rw [M.bind_ok (getRec_ok hx)]
    split
    · rename_i hh
      obtain ⟨m1, s1, e1, a1⟩ := ar_ok (l := l) (J := IsAddr c host) (m := m) (s := s) hx ⟨x, hx, hh⟩
      obtain ⟨m2, s2, e2, a2⟩ := arAddrLoop_ok (host := host) (l := l) rs m1 s1 h'
      rw [M.bind_ok e1]
      exact ⟨m2, s2, e2, a1.trans a2⟩
    · exact arAddrLoop_ok rs m s h'

theorem RInv.pubrec {c : Core} {l : Lists} (h : RInv c l) (i : Nat) : ∀ r ∈ c.published i, ∃ x, c.recs r = some x :=
  fun r m => by
    obtain ⟨x, hx, _⟩ := h.pub i r m
    exact ⟨x, hx⟩

theorem arAddr_ok {c : Core} {l : Lists} (h : RInv c l) (host : Option Bytes) (m : Out) (s : List Nat) :
    ∃ m' s', arAddr host m s ⟨c, l⟩ = .ok ((m', s'), ⟨c, l⟩) ∧
      AddL c (fun r => ∃ h, host = some h ∧ IsAddr c h r) m s m' s' := by
  unfold arAddr
  cases host with
  | none => exact ⟨m, s, rfl, .nil⟩
  | some host =>
    obtain ⟨m1, s1, e1, a1⟩ := arAddrLoop_ok (l := l) (host := host) _ m s (h.pubrec (bucket host sprime))
    refine ⟨m1, s1, ?_, a1.mono fun r j => ⟨host, rfl, j⟩⟩
    rw [← e1]
    rfl

/-- The records for a pointer's target. -/
def ExtraPtr (c : Core) (n : Bytes) (r : Nat) : Prop :=
  (∃ x, c.recs r = some x ∧ x.rr.name = n ∧ (x.rr.type = 33 ∨ x.rr.type = 16)) ∨
    ∃ r1 x1 h, c.recs r1 = some x1 ∧ x1.rr.name = n ∧ x1.rr.type = 33 ∧ x1.rr.rdname = some h ∧ IsAddr c h r

theorem additionalLoop_ok {c : Core} {l : Lists} (h : RInv c l) {name : Bytes} :
    ∀ (rs : List Nat) (m : Out) (s : List Nat), (∀ r ∈ rs, ∃ x, c.recs r = some x) →
    ∃ m' s', additionalLoop name rs m s ⟨c, l⟩ = .ok ((m', s'), ⟨c, l⟩) ∧ AddL c (ExtraPtr c name) m s m' s'
  | [], m, s, _ => ⟨m, s, rfl, .nil⟩
  | r :: rs, m, s, hr => by
    obtain ⟨x, hx⟩ := hr r (by simp)
    have hr' : ∀ r ∈ rs, ∃ x, c.recs r = some x := fun r' m' => hr r' (by simp [m'])
    unfold additionalLoop
    rw [M.bind_ok (getRec_ok hx)]
    split
    · rename_i hh
      obtain ⟨m1, s1, e1, a1⟩ := ar_ok (l := l) (J := ExtraPtr c name) (m := m) (s := s) hx
        (.inl ⟨x, hx, hh.1, .inl hh.2⟩)
      obtain ⟨m2, s2, e2, a2⟩ := arAddr_ok h x.rr.rdname m1 s1
      obtain ⟨m3, s3, e3, a3⟩ := additionalLoop_ok h (name := name) rs m2 s2 hr'
      rw [M.bind_ok e1]
      refine ⟨m3, s3, (M.bind_ok e2).trans e3, (a1.trans (a2.mono ?_)).trans a3⟩
      rintro r' ⟨hst, e, j⟩
      exact .inr ⟨r, x, hst, hx, hh.1, hh.2, e, j⟩
    · split
      · rename_i hh
        obtain ⟨m1, s1, e1, a1⟩ := ar_ok (l := l) (J := ExtraPtr c name) (m := m) (s := s) hx
          (.inl ⟨x, hx, hh.1, .inr hh.2⟩)
        obtain ⟨m3, s3, e3, a3⟩ := additionalLoop_ok h (name := name) rs m1 s1 hr'
        rw [M.bind_ok e1]
        exact ⟨m3, s3, e3, a1.trans a3⟩
      · exact additionalLoop_ok h rs m s hr'

theorem additional_ok {c : Core} {l : Lists} (h : RInv c l) {r : Nat} {x : Rec} (hx : c.recs r = some x) (m : Out)
    (s : List Nat) : ∃ m' s', additional m s r ⟨c, l⟩ = .ok ((m', s'), ⟨c, l⟩) ∧ AddL c (Extra c r) m s m' s' := by
  unfold additional
  rw [M.bind_ok (getRec_ok hx)]
  split
  · rename_i ht
    obtain ⟨m1, s1, e1, a1⟩ := arAddr_ok h x.rr.rdname m s
    exact ⟨m1, s1, e1, a1.mono fun r' j => ⟨x, hx, .inl ⟨ht, j⟩⟩⟩
  · cases hn : x.rr.rdname with
    | none => exact ⟨m, s, rfl, .nil⟩
    | some n =>
      dsimp only
      split
      · exact ⟨m, s, rfl, .nil⟩
      · rename_i hc
        obtain ⟨m1, s1, e1, a1⟩ := additionalLoop_ok h (name := n) _ m s (h.pubrec (bucket n sprime))
        refine ⟨m1, s1, ?_, a1.mono fun r' j => ⟨x, hx, .inr ⟨?_, ?_, n, hn, j⟩⟩⟩
        · rw [M.bind_ok core_ok]
          exact e1
        · exact Decidable.not_not.mp fun e => hc (.inl e)
        · exact fun e => hc (.inr e)

theorem additionals_ok {c : Core} {l : Lists} (h : RInv c l) : ∀ (rs : List Nat) (m : Out) (s : List Nat),
    (∀ r ∈ rs, ∃ x, c.recs r = some x) →
    ∃ m' s', additionals rs m s ⟨c, l⟩ = .ok ((m', s'), ⟨c, l⟩) ∧ AddL c (fun r => ∃ r0 ∈ rs, Extra c r0 r) m s m' s'
  | [], m, s, _ => ⟨m, s, rfl, .nil⟩
  | r :: rs, m, s, hr => by
    obtain ⟨x, hx⟩ := hr r (by simp)
    unfold additionals
    obtain ⟨m1, s1, e1, a1⟩ := additional_ok h hx m s
    obtain ⟨m2, s2, e2, a2⟩ := additionals_ok h rs m1 s1 fun r' m' => hr r' (by simp [m'])
    rw [M.bind_ok e1]
    exact ⟨m2, s2, e2, (a1.mono fun r' j => ⟨r, by simp, j⟩).trans (a2.mono fun r' ⟨r0, m0, j⟩ => ⟨r0, by simp [m0], j⟩)⟩

/-! ### Parts of `mdnsd_out` -/

/-- The publish retries. -/
inductive PubOpt : OSt → OSt → Prop
  | no {s : OSt} (h : RInv s.c s.l)
      (hn : ¬ (s.l.q .probing = [] ∧ s.l.q .publish ≠ [] ∧ tvdiff s.c.now s.c.publish ≤ 0)) : PubOpt s s
  | yes {s t : OSt} (h1 : s.l.q .probing = []) (h2 : s.l.q .publish ≠ []) (h3 : tvdiff s.c.now s.c.publish ≤ 0)
      (n : PubL [] (s.l.q .publish) s t) :
      PubOpt s { t with c := if t.l.q .publish ≠ [] then { t.c with publish := ⟨t.c.now.sec + 2, t.c.now.usec⟩ } else t.c }

theorem PubOpt.inv {s t : OSt} (n : PubOpt s t) : RInv t.c t.l := by
  cases n with
  | no h => exact h
  | yes _ _ _ n =>
    show RInv (if _ then _ else _) _
    split
    · exact n.inv.congr rfl rfl rfl
    · exact n.inv

theorem PubOpt.recfree {s t : OSt} (n : PubOpt s t) : t.c.recfree = s.c.recfree := by
  cases n with
  | no h => rfl
  | yes _ _ _ n =>
    show (if _ then _ else _ : Core).recfree = _
    split
    · exact n.recfree
    · exact n.recfree

theorem PubOpt.seenOk {s t : OSt} (n : PubOpt s t) (h : SeenOk s.c s.seen) : SeenOk t.c t.seen := by
  cases n with
  | no => exact h
  | yes _ _ _ n =>
    show SeenOk (if _ then _ else _) _
    split
    · exact n.seenOk h
    · exact n.seenOk h

theorem head_ne_none {l : List Nat} : l.head? ≠ none ↔ l ≠ [] := by
  cases l <;> simp
theorem head_eq_none {l : List Nat} : l.head? = none ↔ l = [] := by
  cases l <;> simp

theorem outPublish_ok {s : OSt} (h : RInv s.c s.l) :
    ∃ t, outPublish s.m s.seen s.ret ⟨s.c, s.l⟩ = .ok ((t.m, t.seen, t.ret), ⟨t.c, t.l⟩) ∧ PubOpt s t := by
  unfold outPublish
  rw [M.bind_ok qHead_ok, M.bind_ok qHead_ok, M.bind_ok core_ok]
  split
  · rename_i hc
    obtain ⟨h1, h2, h3⟩ := hc
    rw [head_eq_none] at h1
    rw [head_ne_none] at h2
    rw [M.bind_ok qFuel_ok]
    obtain ⟨t, e, n⟩ := publishLoop_ok (s.l.q .publish) [] s.l.size s h rfl (h.length_le _)
    refine ⟨_, ?_, .yes h1 h2 h3 n⟩
    refine (M.bind_ok e).trans ?_
    dsimp only
    rw [M.bind_ok qHead_ok]
    by_cases hq : t.l.q .publish = []
    · simp only [hq]
      rfl
    · rw [if_pos (head_ne_none.mpr hq), if_pos hq]
      rfl
  · rename_i hc
    refine ⟨s, rfl, .no h ?_⟩
    rw [head_eq_none, ← head_ne_none] at *
    exact hc

/-- The delayed answers. -/
inductive PauseOpt : OSt → OSt → Prop
  | no {s : OSt} (h : RInv s.c s.l) (hn : ¬ (s.l.q .pause ≠ [] ∧ tvdiff s.c.now s.c.pause ≤ 0)) : PauseOpt s s
  | yes {s t : OSt} (h1 : s.l.q .pause ≠ []) (h2 : tvdiff s.c.now s.c.pause ≤ 0) (n : ROut .pause s t) : PauseOpt s t

theorem PauseOpt.inv {s t : OSt} (n : PauseOpt s t) : RInv t.c t.l := by
  cases n with
  | no h => exact h
  | yes _ _ n => exact n.inv

theorem PauseOpt.recfree {s t : OSt} (n : PauseOpt s t) : t.c.recfree = s.c.recfree := by
  cases n with
  | no h => rfl
  | yes _ _ n => exact n.recfree

theorem PauseOpt.seenOk {s t : OSt} (n : PauseOpt s t) (h : SeenOk s.c s.seen) : SeenOk t.c t.seen := by
  cases n with
  | no => exact h
  | yes _ _ n => exact n.seenOk h

/-- The probes. -/
inductive ProbeOpt : OSt → OSt → Prop
  | no {s : OSt} (h : RInv s.c s.l) (hn : ¬ (s.l.q .probing ≠ [] ∧ tvdiff s.c.now s.c.probe ≤ 0)) : ProbeOpt s s
  | yes {s u t : OSt} (h1 : s.l.q .probing ≠ []) (h2 : tvdiff s.c.now s.c.probe ≤ 0)
      (n : ProbeA [] (s.l.q .probing) s u) (n' : ProbeB [] (u.l.q .probing) u t) :
      ProbeOpt s { t with c := if t.ret ≠ 0 then { t.c with probe := ⟨t.c.now.sec, t.c.now.usec + 250000⟩ } else t.c }

theorem ProbeOpt.inv {s t : OSt} (n : ProbeOpt s t) : RInv t.c t.l := by
  cases n with
  | no h => exact h
  | yes _ _ _ n =>
    show RInv (if _ then _ else _) _
    split
    · exact n.inv.congr rfl rfl rfl
    · exact n.inv

theorem ProbeOpt.recfree {s t : OSt} (n : ProbeOpt s t) : t.c.recfree = s.c.recfree := by
  cases n with
  | no h => rfl
  | yes _ _ n0 n =>
    show (if _ then _ else _ : Core).recfree = _
    split
    · exact n.recfree.trans n0.recfree
    · exact n.recfree.trans n0.recfree

theorem ProbeA.len {pre suf : List Nat} {s t : OSt} (n : ProbeA pre suf s t) : t.l.size = s.l.size ∧ t.ret = s.ret := by
  induction n with
  | done => exact ⟨rfl, rfl⟩
  | verified _ _ _ _ _ ih => exact ih
  | ask _ _ _ _ _ ih => exact ih

theorem outProbe_ok {s : OSt} (h : RInv s.c s.l) (h0 : s.ret = 0) :
    ∃ t, outProbe s.m ⟨s.c, s.l⟩ = .ok ((t.m, t.ret), ⟨t.c, t.l⟩) ∧ ProbeOpt s t := by
  unfold outProbe
  rw [M.bind_ok qHead_ok, M.bind_ok core_ok]
  split
  · rename_i hc
    obtain ⟨h1, h2⟩ := hc
    rw [head_ne_none] at h1
    rw [M.bind_ok qFuel_ok]
    obtain ⟨u, e, n⟩ := probeAsk_ok (s.l.q .probing) [] s.l.size s h rfl (h.length_le _)
    obtain ⟨t, e', n'⟩ := probeAnswer_ok (u.l.q .probing) [] s.l.size u n.inv rfl
      (n.no_four (fun _ m => by cases m)) (by rw [← n.len.1]; exact n.inv.length_le _)
    rw [n.len.2, h0] at e'
    refine ⟨_, ?_, .yes h1 h2 n n'⟩
    refine (M.bind_ok e).trans ((M.bind_ok qHead_ok).trans ((M.bind_ok e').trans ?_))
    dsimp only
    by_cases hr : t.ret = 0
    · rw [if_neg (by simpa using hr), if_neg (by simpa using hr)]
      rfl
    · rw [if_pos hr, if_pos hr]
      rfl
  · rename_i hc
    refine ⟨s, ?_, .no h ?_⟩
    · rw [h0]
      rfl
    · rw [← head_ne_none]
      exact hc

end Mdns
