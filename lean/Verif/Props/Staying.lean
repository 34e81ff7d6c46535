import Verif.Lemmas.Staying
import Verif.Lemmas.Losing
import Verif.Props.Renewal

/-!
# C84: what stays there stays known
-/

namespace Mdns

/-! ### Specification -/

/-- The call receives a response from another host that says that there is such a record. -/
def Confirms (env : Env) (d : D Ptrs) (b : Answer) (o : Op) : Prop :=
  ∃ now m src r, o = .recv now m src ∧ m.header.qr = true ∧ Elsewhere env d.c src ∧ r ∈ m.an ∧ carries r b = true ∧ r.ttl ≠ 0

/-- No response says that the record is gone, or that it is replaced by others. -/
def Undisturbed (b : Answer) (h : List Call) : Prop :=
  ∀ k ∈ h, ∀ r ∈ k.1.told, (r.ttl = 0 → carries r b = false) ∧
    (32768 ≤ r.cls → r.name = b.name → (r.type = b.type ∨ r.type = 255) → carries r b = true ∧ r.ttl ≠ 0)

/-- Whenever the question is asked while the record is not known, or has no more than eight seconds left, so that the
packet does not list it as known, a response confirms it within two seconds. -/
def Replied (env : Env) (d : D Ptrs) (host : Bytes) (type : Nat) (b : Answer) (h : List Call) : Prop :=
  ∀ p k q t dp, h = p ++ k :: q → Calls env d p dp → Call.askTime host type k = some t →
    (∀ b' ∈ dp.c.listed host type, SameRec b' b → b'.ttl ≤ t + 8) → (∃ k' ∈ q, ∃ c, k'.1.clock = some c ∧ t + 2 < c.sec) →
    ∃ q1 k' q2 d' c, q = q1 ++ k' :: q2 ∧ Calls env d (p ++ k :: q1) d' ∧ Confirms env d' b k'.1 ∧
      k'.1.clock = some c ∧ c.sec ≤ t + 2

/-- From `T` on `mdnsd_out` is called, until there is nothing to send, and once more, in every second or the one after it. -/
def Tended (T : Nat) (h : List Call) : Prop :=
  ∀ s, T ≤ s → (∃ k ∈ h, ∃ c, k.1.clock = some c ∧ s + 2 ≤ c.sec) →
    ∃ p now m to now' m' to' q, h = p ++ (.send now, .sent 0 m to) :: (.send now', .sent 0 m' to') :: q ∧ s ≤ now.sec ∧ now'.sec ≤ s + 1

/-! ### Proofs -/

theorem Calls.lastCall {env : Env} {d d' : D Ptrs} {k : Call} {h : List Call} (n : Calls env d (h ++ [k]) d') :
    ∃ d1, Calls env d h d1 ∧ OpSafe env d1.c d1.q.walk k.1 ∧ Mdns.step env k.1 d1 = .ok (k.2, d') := by
  generalize e : h ++ [k] = l at n
  cases n with
  | nil => exact absurd e (by simp)
  | @snoc h' d1 _ o a n hs e1 =>
    obtain ⟨rfl, e2⟩ := List.append_inj' e rfl
    cases e2
    exact ⟨d1, n, hs, e1⟩

theorem Calls.of_nil {env : Env} {d d' : D Ptrs} (n : Calls env d [] d') : d' = d := by
  generalize e : ([] : List Call) = l at n
  cases n with
  | nil => rfl
  | snoc => exact absurd e (by simp)

theorem snoc_induction {α : Type} {P : List α → Prop} (nil : P []) (snoc : ∀ l a, P l → P (l ++ [a])) (l : List α) : P l := by
  have : ∀ l : List α, P l.reverse := by
    intro l
    induction l with
    | nil => exact nil
    | cons a l ih => rw [List.reverse_cons]; exact snoc _ a ih
  have := this l.reverse
  rwa [List.reverse_reverse] at this

theorem Calls.det {env : Env} {d : D Ptrs} {h : List Call} : ∀ {d' d'' : D Ptrs}, Calls env d h d' → Calls env d h d'' → d' = d'' := by
  induction h using snoc_induction with
  | nil =>
    intro d' d'' n n'
    rw [n.of_nil, n'.of_nil]
  | snoc h k ih =>
    intro d' d'' n n'
    obtain ⟨d1, n1, _, e1⟩ := n.lastCall
    obtain ⟨d2, n2, _, e2⟩ := n'.lastCall
    have := ih n1 n2
    subst this
    rw [e1] at e2
    cases e2
    rfl

theorem Later.last {env : Env} {d d' : D Ptrs} {k : Call} {h : List Call} {T T' : Nat} (n : Later env d T (h ++ [k]) d' T') :
    ∃ d1 T1, Later env d T h d1 T1 ∧ OpSafe env d1.c d1.q.walk k.1 ∧ Mdns.step env k.1 d1 = .ok (k.2, d') ∧
      T' = (match k.1.clock with | some t => t.sec | none => T1) ∧ T1 ≤ T' := by
  generalize e : h ++ [k] = l at n
  cases n with
  | nil => exact absurd e (by simp)
  | @snoc h' d1 _ o a T1 _ n hs e1 hT hle =>
    obtain ⟨rfl, e2⟩ := List.append_inj' e rfl
    cases e2
    exact ⟨d1, T1, n, hs, e1, hT, hle⟩

theorem Later.split {env : Env} {d : D Ptrs} {pre post : List Call} {T : Nat} : ∀ {d' : D Ptrs} {T' : Nat},
    Later env d T (pre ++ post) d' T' → ∃ d1 T1, Later env d T pre d1 T1 ∧ Later env d1 T1 post d' T' := by
  induction post using snoc_induction with
  | nil =>
    intro d' T' n
    rw [List.append_nil] at n
    exact ⟨d', T', n, .nil⟩
  | snoc post k ih =>
    intro d' T' n
    rw [← List.append_assoc] at n
    obtain ⟨d2, T2, n2, hs, e, hT, hle⟩ := n.last
    obtain ⟨d1, T1, n1, n3⟩ := ih n2
    exact ⟨d1, T1, n1, .snoc n3 hs e hT hle⟩

theorem Later.clocks {env : Env} {d d' : D Ptrs} {h : List Call} {T T' : Nat} (n : Later env d T h d' T') :
    ∀ k ∈ h, ∀ c, k.1.clock = some c → T ≤ c.sec ∧ c.sec ≤ T' := by
  induction n with
  | nil => intro k m; cases m
  | @snoc h d1 d' o a T1 T' n hs e hT hle ih =>
    intro k m c hc
    rcases List.mem_append.mp m with m | m
    · have := ih k m c hc
      omega
    · rw [List.mem_singleton] at m
      subst m
      rw [hc] at hT
      simp only at hT
      have := n.le
      omega

/-- What is assumed about the calls. -/
structure Steady (env : Env) (d1 : D Ptrs) (T0 : Nat) (host : Bytes) (type : Nat) (b0 : Answer) (L : Nat) (post : List Call)
    (d2 : D Ptrs) (T : Nat) : Prop where
  later : Later env d1 T0 post d2 T
  life : SameLife host type L post
  und : Undisturbed b0 post
  rep : Replied env d1 host type b0 post
  tend : Tended T0 post
  up : ∀ p q dq, post = p ++ q → Calls env d1 p dq → dq.c.shutdown = false
  reg : ∀ evs, d2.c.log = d1.c.log ++ evs → .unregistered host type ∉ evs

theorem Confirms.recv {env : Env} {d : D Ptrs} {b : Answer} {o : Op} (h : Confirms env d b o) : ∃ c, o.clock = some c := by
  obtain ⟨now, m, src, r, rfl, _⟩ := h
  exact ⟨now, rfl⟩

theorem Steady.init {env : Env} {d1 d2 : D Ptrs} {T0 T L type : Nat} {host : Bytes} {b0 : Answer} {post : List Call} {k : Call}
    (hr : Reach env d1) (h : Steady env d1 T0 host type b0 L (post ++ [k]) d2 T) :
    ∃ d' T', Steady env d1 T0 host type b0 L post d' T' ∧ OpSafe env d'.c d'.q.walk k.1 ∧ Mdns.step env k.1 d' = .ok (k.2, d2) ∧
      T = (match k.1.clock with | some t => t.sec | none => T') ∧ T' ≤ T := by
  obtain ⟨d', T', n, hs, e, hT, hle⟩ := h.later.last
  refine ⟨d', T', ⟨n, fun x m => h.life x (by simp [m]), fun x m => h.und x (by simp [m]), ?_, ?_, ?_, ?_⟩, hs, e, hT, hle⟩
  · rintro p x q t dp rfl np ha hkn ⟨x', mx, c, hc, hlt⟩
    have hlt' : t + 2 < T' := by
      have := (n.clocks x' (by simp [mx]) c hc).2
      omega
    obtain ⟨q1, y, q2, dy, cy, eq, ny, hy, hcy, hly⟩ := h.rep p x (q ++ [k]) t dp (by simp) np ha hkn ⟨x', by simp [mx], c, hc, hlt⟩
    rcases List.eq_nil_or_concat q2 with rfl | ⟨q3, z, rfl⟩
    · obtain ⟨_, e2⟩ := List.append_inj' eq rfl
      cases e2
      rw [hcy] at hT
      simp only at hT
      omega
    · rw [List.concat_eq_append, ← List.cons_append, ← List.append_assoc] at eq
      obtain ⟨e1, _⟩ := List.append_inj' eq rfl
      exact ⟨q1, y, q3, dy, cy, e1, ny, hy, hcy, hly⟩
  · rintro s hs ⟨x', mx, c, hc, hlt⟩
    have hlt' : s + 2 ≤ T' := by
      have := (n.clocks x' mx c hc).2
      omega
    obtain ⟨p, now, m, to, now', m', to', q, eq, h1, h2⟩ := h.tend s hs ⟨x', by simp [mx], c, hc, hlt⟩
    rcases List.eq_nil_or_concat q with rfl | ⟨q3, z, rfl⟩
    · rw [show p ++ [((.send now, .sent 0 m to) : Call), (.send now', .sent 0 m' to')] =
        (p ++ [(.send now, .sent 0 m to)]) ++ [(.send now', .sent 0 m' to')] by simp] at eq
      obtain ⟨_, e2⟩ := List.append_inj' eq rfl
      cases e2
      have hT : T = now'.sec := hT
      omega
    · rw [List.concat_eq_append, ← List.cons_append, ← List.cons_append, ← List.append_assoc] at eq
      obtain ⟨e1, _⟩ := List.append_inj' eq rfl
      exact ⟨p, now, m, to, now', m', to', q3, e1, h1, h2⟩
  · rintro p q dq rfl nq
    exact h.up p (q ++ [k]) dq (by simp) nq
  · intro evs hl m
    obtain ⟨ev2, h2⟩ := (After.step .refl hs e).log (n.calls.reach' hr)
    exact h.reg (evs ++ ev2) (by rw [h2, hl, List.append_assoc]) (by simp [m])

theorem carries_key {r : Resource} {b : Answer} (h : carries r b = true) : b.name = r.name ∧ b.type = r.type := by
  unfold carries at h
  simp only [Bool.and_eq_true, beq_iff_eq] at h
  exact h.1

/-- Answers that say that there is the record bring it; others do not touch it. -/
theorem spares_or_brings {host : Bytes} {type L : Nat} {b0 : Answer} {now : TV} {m : Msg} {src : Addr} {out : OpOut}
    {P : Answer → Prop} (hq : m.header.qr = true)
    (hlife : SameLife host type L [(.recv now m src, out)]) (hund : Undisturbed b0 [(.recv now m src, out)])
    (hb0 : b0.is host type = true) (hP : ∀ b, P b → SameRec b b0)
    (hP' : ∀ b, SameRec b b0 → b.ttl = now.sec + L / 2 + 8 → P b) :
    ∀ a ∈ m.an, a.WF → (carries a b0 = true → a.ttl ≠ 0 → Brings P now src a) ∧ (Spares P now a ∨ Brings P now src a) := by
  intro a ma hw
  have mt : a ∈ (Op.recv now m src).told := by
    show a ∈ if m.header.qr = true then m.an else []
    rw [if_pos hq]
    exact ma
  have hu := hund (.recv now m src, out) (by simp) a mt
  obtain ⟨i1, i2⟩ := (is_iff _ _ _).mp hb0
  have main : carries a b0 = true → a.ttl ≠ 0 → Brings P now src a := by
    intro hc h0
    obtain ⟨c1, c2⟩ := carries_key hc
    have hL : a.ttl = L := by
      refine (hlife (.recv now m src, out) (by simp) a mt ⟨c1.symm.trans i1, ?_⟩).resolve_left h0
      rw [← c2]
      exact i2
    refine ⟨h0, hP' _ ?_ ?_, fun b hb => hP' _ ?_ ?_⟩
    · exact (hit_iff hw src _ b0).mp (by rw [hit_carries hw]; exact hc)
    · rw [newEntry_ttl, hL]
    · have h1 := (hit_iff hw src 0 b0).mp (by rw [hit_carries hw]; exact hc)
      have h2 := (hit_iff hw src 0 b).mp (by rw [hit_carries hw]; exact hb)
      exact SameRec.setTtl (a := b) (b := b0) (t' := b0.ttl) |>.mpr (h2.symm.trans h1)
    · rw [← hL]
  refine ⟨main, ?_⟩
  by_cases hc : carries a b0 = true ∧ a.ttl ≠ 0
  · exact .inr (main hc.1 hc.2)
  · refine .inl ⟨fun hf b hb => ?_, fun h0 b hb => ?_, fun h0 b hb hcb => ?_⟩
    · cases hi : b.is a.name a.type with
      | false => rfl
      | true =>
        obtain ⟨j1, j2⟩ := (is_iff _ _ _).mp hi
        have hs := hP b hb
        unfold typeFits at j2
        rw [hs.1] at j1
        rw [hs.2.1] at j2
        exact absurd (hu.2 hf j1.symm j2) hc
    · rw [carries_same hw (hP b hb)]
      exact hu.1 h0
    · rw [carries_same hw (hP b hb)] at hcb
      exact absurd ⟨hcb, h0⟩ hc

theorem Stocked.listed {P : Answer → Prop} {c : Core} (hi : CInv c) {host : Bytes} {type : Nat} {b0 : Answer} (h : Stocked P c)
    (hb0 : b0.is host type = true) (hP : ∀ b, P b → SameRec b b0) : ∃ b ∈ c.listed host type, P b := by
  obtain ⟨i, b, m, hb⟩ := h
  obtain ⟨i1, i2⟩ := (is_iff _ _ _).mp hb0
  have hs := hP b hb
  obtain ⟨en, me, rfl⟩ := List.mem_map.mp m
  have h1 := hi.cbucket i en me
  rw [hs.1, i1] at h1
  subst h1
  refine ⟨en.rr, mem_listed_iff.mpr ⟨m, (is_iff _ _ _).mpr ⟨hs.1.trans i1, ?_⟩⟩, hb⟩
  unfold typeFits at *
  rw [hs.2.1]
  exact i2

/-- A confirmation brings the record. -/
theorem Reach.confirmed {env : Env} {d d' : D Ptrs} (hr : Reach env d) {k : Call} {host : Bytes} {type L : Nat} {b0 : Answer}
    (hs : OpSafe env d.c d.q.walk k.1) (e : Mdns.step env k.1 d = .ok (k.2, d')) (hsd : d.c.shutdown = false)
    (hlife : SameLife host type L [k]) (hund : Undisturbed b0 [k]) (hb0 : b0.is host type = true)
    (hk : Confirms env d b0 k.1) {c : TV} (hc : k.1.clock = some c) :
    ∃ b ∈ d'.c.listed host type, SameRec b b0 ∧ b.ttl = c.sec + L / 2 + 8 := by
  obtain ⟨o, out⟩ := k
  obtain ⟨now, m, src, r, ho, hq, he, mr, hcr, h0⟩ := hk
  simp only at ho hc
  subst ho
  have hc : now = c := Option.some.inj hc
  subst hc
  have sb := spares_or_brings (P := fun b => SameRec b b0 ∧ b.ttl = now.sec + L / 2 + 8) hq hlife hund hb0 (fun b h => h.1)
    (fun b h1 h2 => ⟨h1, h2⟩)
  refine Stocked.listed (hr.step hs e).inv.cinv ?_ hb0 fun b h => h.1
  refine Stocked.did (hr.did hs e) hr.inv ?_ ?_ ?_
  · rintro b ⟨_, h2⟩ t ht
    cases ht
    omega
  · intro n' m' s' e' hq' a ma hw
    cases e'
    exact (sb a ma hw).2
  · exact .inr ⟨now, m, src, rfl, hsd, he.foreign hr, hq, r, mr, fun hw => (sb r mr hw).1 hcr h0⟩

/-- A record that has not expired stays, or is brought again. -/
theorem Reach.stays {env : Env} {d d' : D Ptrs} (hr : Reach env d) {k : Call} {host : Bytes} {type L T T' : Nat} {b b0 : Answer}
    (hs : OpSafe env d.c d.q.walk k.1) (e : Mdns.step env k.1 d = .ok (k.2, d'))
    (hlife : SameLife host type L [k]) (hund : Undisturbed b0 [k]) (hb0 : b0.is host type = true)
    (hT : T' = match k.1.clock with | some t => t.sec | none => T)
    (mb : b ∈ d.c.listed host type) (hbs : SameRec b b0) (hlt : T' < b.ttl) :
    ∃ b' ∈ d'.c.listed host type, SameRec b' b0 ∧ (b' = b ∨ b'.ttl = T' + L / 2 + 8) := by
  obtain ⟨o, out⟩ := k
  have hP : ∀ b' : Answer, (SameRec b' b0 ∧ (b' = b ∨ b'.ttl = T' + L / 2 + 8)) → SameRec b' b0 := fun _ h => h.1
  refine Stocked.listed (hr.step hs e).inv.cinv ?_ hb0 hP
  refine Stocked.did (hr.did hs e) hr.inv ?_ ?_ ?_
  · rintro b' ⟨_, h2⟩ t ht
    simp only at ht hT
    rw [ht] at hT
    simp only at hT
    rcases h2 with rfl | h2 <;> omega
  · intro now m src e' hq a ma hw
    simp only at e'
    subst e'
    refine (spares_or_brings hq hlife hund hb0 hP (fun b' h1 h2 => ⟨h1, .inr ?_⟩) a ma hw).2
    have hT : T' = now.sec := hT
    rw [hT]
    exact h2
  · exact .inl ⟨_, b, (mem_listed_iff.mp mb).1, hbs, .inl rfl⟩

theorem listed_unique {c : Core} (hi : CInv c) {host : Bytes} {type : Nat} {b b' : Answer} (h : b ∈ c.listed host type)
    (h' : b' ∈ c.listed host type) (hs : SameRec b' b) : b' = b := by
  obtain ⟨e, me, rfl⟩ := List.mem_map.mp (mem_listed_iff.mp h).1
  obtain ⟨e', me', rfl⟩ := List.mem_map.mp (mem_listed_iff.mp h').1
  have hu := hi.cuniq (bucket host lprime)
  by_cases he : e' = e
  · rw [he]
  · have key : ∀ l : List Cached, (l.Pairwise fun a b => ¬ SameRec a.rr b.rr) → e ∈ l → e' ∈ l → False := by
      intro l
      induction l with
      | nil => intro _ m; cases m
      | cons x l ih =>
        intro hp m m'
        rw [List.pairwise_cons] at hp
        rcases List.mem_cons.mp m with rfl | m1
        · rcases List.mem_cons.mp m' with rfl | m2
          · exact he rfl
          · exact hp.1 e' m2 hs.symm
        · rcases List.mem_cons.mp m' with rfl | m2
          · exact hp.1 e m1 hs
          · exact ih hp.2 m1 m2
    exact (key _ hu me me').elim

/-- The record is listed, and has been since it was last confirmed. -/
structure Stays (env : Env) (d1 : D Ptrs) (T0 : Nat) (host : Bytes) (type : Nat) (b0 : Answer) (L : Nat) (post : List Call)
    (d2 : D Ptrs) (T : Nat) (b : Answer) (s0 : Nat) : Prop where
  mem : b ∈ d2.c.listed host type
  same : SameRec b b0
  ttl : b.ttl = s0 + L / 2 + 8
  start : T0 ≤ s0
  le : s0 ≤ T
  live : T < b.ttl
  since : ∀ p q dq Tq, post = p ++ q → Later env d1 T0 p dq Tq → s0 < Tq → b ∈ dq.c.listed host type
  conf : ∀ p k q dq c, post = p ++ k :: q → Calls env d1 p dq → Confirms env dq b0 k.1 → k.1.clock = some c → c.sec ≤ s0

theorem Later.det {env : Env} {d : D Ptrs} {T : Nat} {h : List Call} : ∀ {d' d'' : D Ptrs} {T' T'' : Nat}, Later env d T h d' T' →
    Later env d T h d'' T'' → T' = T'' := by
  induction h using snoc_induction with
  | nil =>
    intro d' d'' T' T'' n n'
    have : ∀ {d' T'}, Later env d T [] d' T' → T' = T := by
      intro d' T' n
      generalize e : ([] : List Call) = l at n
      cases n with
      | nil => rfl
      | snoc => exact absurd e (by simp)
    rw [this n, this n']
  | snoc h k ih =>
    intro d' d'' T' T'' n n'
    obtain ⟨d1, T1, n1, _, _, hT1, _⟩ := n.last
    obtain ⟨d2, T2, n2, _, _, hT2, _⟩ := n'.last
    have := ih n1 n2
    subst this
    exact hT1.trans hT2.symm

theorem Stays.first {env : Env} {d1 d2 : D Ptrs} {T0 T L type : Nat} {host : Bytes} {b0 : Answer} {post : List Call} {k : Call}
    (hr : Reach env d1) (h : Steady env d1 T0 host type b0 L (post ++ [k]) d2 T) (hb0 : b0.is host type = true)
    (hk : ∀ d', Calls env d1 post d' → Confirms env d' b0 k.1) :
    ∃ b s0, Stays env d1 T0 host type b0 L (post ++ [k]) d2 T b s0 := by
  obtain ⟨d', T', h', hs, e, hT, hle⟩ := h.init hr
  have hk := hk d' h'.later.calls
  obtain ⟨c, hc⟩ := hk.recv
  have hsd := h.up post [k] d' rfl h'.later.calls
  obtain ⟨b, mb, h1, h2⟩ := (h'.later.calls.reach' hr).confirmed hs e hsd (fun x m => h.life x (by simp_all))
    (fun x m => h.und x (by simp_all)) hb0 hk hc
  rw [hc] at hT
  simp only at hT
  refine ⟨b, T, mb, h1, by rw [h2, hT], h.later.le, Nat.le_refl _, by omega, ?_, ?_⟩
  · intro p q dq Tq eq nq hlt
    rw [eq] at h
    obtain ⟨_, T2, n2, n3⟩ := h.later.split
    have := n2.det nq
    have := n3.le
    omega
  · intro p x q dq c' eq nq _ hc'
    exact (h.later.clocks x (by rw [eq]; simp) c' hc').2

theorem mem_split_filterMap {α β : Type} {f : α → Option β} : ∀ {l : List α} {b : β}, b ∈ l.filterMap f →
    ∃ p a q, l = p ++ a :: q ∧ f a = some b := by
  intro l b m
  obtain ⟨a, ma, ha⟩ := List.mem_filterMap.mp m
  obtain ⟨p, q, rfl⟩ := List.append_of_mem ma
  exact ⟨p, a, q, rfl, ha⟩

theorem askTime_clock {host : Bytes} {type t : Nat} {k : Call} (h : Call.askTime host type k = some t) :
    ∃ c, k.1.clock = some c ∧ c.sec = t := by
  unfold Call.askTime at h
  split at h
  · split at h
    · cases h
      exact ⟨_, rfl, rfl⟩
    · cases h
  · cases h

theorem Prompted.init {env : Env} {d : D Ptrs} {host : Bytes} {type : Nat} {p q : List Call} (h : Prompted env d host type (p ++ q)) :
    Prompted env d host type p := by
  intro h1 h2 now m src a d1 e n r
  exact h h1 (h2 ++ q) now m src a d1 (by rw [e]; simp) n r

theorem Stays.step {env : Env} {d d1 d2 : D Ptrs} {T0 T L type cb : Nat} {host : Bytes} {b0 : Answer} {pre post : List Call} {k : Call}
    {a : OpOut} (hr : Timed env pre d T0) (hnew : callback d.c.log host type = none)
    (eq : Mdns.step env (.query host type (some cb)) d = .ok (a, d1)) (hpre : SameLife host type L pre)
    (h : Steady env d1 T0 host type b0 L (post ++ [k]) d2 T) (hb0 : b0.is host type = true) (hpr : Prompted env d1 host type post)
    (ih : ∀ d2 T, Steady env d1 T0 host type b0 L post d2 T → ∃ b s0, Stays env d1 T0 host type b0 L post d2 T b s0) :
    (∃ b s0, Stays env d1 T0 host type b0 L (post ++ [k]) d2 T b s0) ∧ Prompted env d1 host type (post ++ [k]) := by
  have hr1 : Reach env d1 := hr.reach.step (o := .query host type (some cb)) trivial eq
  obtain ⟨d', T', h', hs, e, hT, hle⟩ := h.init hr1
  obtain ⟨b, s0, I⟩ := ih d' T' h'
  have hr' := h'.later.calls.reach' hr1
  refine ⟨?_, ?_⟩
  · by_cases hk : Confirms env d' b0 k.1
    · exact Stays.first hr1 h hb0 fun dx nx => by rw [nx.det h'.later.calls]; exact hk
    · have hlt : T < b.ttl := by
        refine Classical.byContradiction fun hge => ?_
        have htl := I.ttl
        have hsl := I.live
        have hle0 := I.le
        have hst := I.start
        have hclk : ∃ c, k.1.clock = some c := by
          cases hc : k.1.clock with
          | none =>
            rw [hc] at hT
            simp only at hT
            omega
          | some c => exact ⟨c, rfl⟩
        obtain ⟨c, hc⟩ := hclk
        rw [hc] at hT
        simp only at hT
        obtain ⟨p, now, m, to, now', m', to', q, ep, hn1, hn2⟩ := h.tend (s0 + L / 2 + 3) (by omega) ⟨k, by simp, c, hc, by omega⟩
        -- the two calls come before the last one
        have ep : ∃ q', post = p ++ (.send now, .sent 0 m to) :: (.send now', .sent 0 m' to') :: q' := by
          rcases List.eq_nil_or_concat q with rfl | ⟨q3, z, rfl⟩
          · rw [show p ++ [((.send now, .sent 0 m to) : Call), (.send now', .sent 0 m' to')] =
              (p ++ [(.send now, .sent 0 m to)]) ++ [(.send now', .sent 0 m' to')] by simp] at ep
            obtain ⟨_, e2⟩ := List.append_inj' ep rfl
            cases e2
            cases hc
            omega
          · rw [List.concat_eq_append, ← List.cons_append, ← List.cons_append, ← List.append_assoc] at ep
            exact ⟨q3, (List.append_inj' ep rfl).1⟩
        obtain ⟨q', ep⟩ := ep
        have ep2 : post = (p ++ [(.send now, .sent 0 m to), (.send now', .sent 0 m' to')]) ++ q' := by rw [ep]; simp
        have nl := h'.later
        rw [ep2] at nl
        obtain ⟨d4, T4, n4, n5⟩ := nl.split
        rw [show p ++ [((.send now, .sent 0 m to) : Call), (.send now', .sent 0 m' to')] =
              (p ++ [(.send now, .sent 0 m to)]) ++ [(.send now', .sent 0 m' to')] by simp] at n4
        obtain ⟨d3, T3, n3, hs4, e4, hT4, hle4⟩ := n4.last
        obtain ⟨dp, Tp, np, hs3, e3, hT3, hle3⟩ := n3.last
        have hT3 : T3 = now.sec := hT3
        have hT4 : T4 = now'.sec := hT4
        have mb3 := I.since _ _ d3 T3 (by rw [ep]; simp : post = (p ++ [(.send now, .sent 0 m to)]) ++ ((.send now', .sent 0 m' to') :: q')) n3
          (by omega)
        obtain ⟨ev1, hl1⟩ := n3.calls.log hr1
        obtain ⟨ev2, hl2⟩ := (After.step .refl hs4 e4).log (n3.calls.reach' hr1)
        obtain ⟨ev3, hl3⟩ := n5.calls.log (n4.calls.reach' hr1)
        have hreg : .unregistered host type ∉ ev1 := by
          intro mm
          exact h'.reg (ev1 ++ (ev2 ++ ev3)) (by rw [hl3, hl2, hl1]; simp) (by simp [mm])
        have hprp : Prompted env d1 host type p := by
          rw [ep] at hpr
          exact hpr.init
        obtain ⟨l, t, hl, ht⟩ := C83_again_partial hr hnew eq np
          (fun x mx => by
            rcases List.mem_append.mp mx with mx | mx
            · exact hpre x mx
            · exact h.life x (by rw [ep]; simp [mx]))
          hprp (by omega) (by omega) hs3 e3 hs4 e4 (h.up p _ dp (by rw [ep]; simp; rfl) np.calls)
          (h.up (p ++ [(.send now, .sent 0 m to)]) _ d3 (by rw [ep]; simp; rfl) n3.calls) hl1 hreg mb3 (by omega)
        obtain ⟨r1, x, r2, rfl, hx⟩ := mem_split_filterMap (f := Call.askTime host type) (l := p) (b := t) (by
          show t ∈ askTimes host type p
          rw [hl]
          simp)
        obtain ⟨cx, hcx, hxt⟩ := askTime_clock hx
        have htn := (np.clocks x (by simp) cx hcx).2
        obtain ⟨dx, Tx, nx, nx'⟩ := np.split
        have hTx : Tx ≤ t := by
          have := (nx'.clocks x (by simp) cx hcx).1
          omega
        have hknown : ∀ b' ∈ dx.c.listed host type, SameRec b' b0 → b'.ttl ≤ t + 8 := by
          intro b' mb' hs'
          by_cases hTs : s0 < Tx
          · have mbx := I.since r1 (x :: (r2 ++ (.send now, .sent 0 m to) :: (.send now', .sent 0 m' to') :: q')) dx Tx
              (by rw [ep]; simp) nx hTs
            have := listed_unique (nx.calls.reach' hr1).inv.cinv mbx mb' (hs'.trans I.same.symm)
            rw [this]
            omega
          · have hl1 : Lives d1.c host type L T0 := by
              have hl0 := hr.lives hpre
              intro b1 m1
              refine hl0 b1 ?_
              rcases hr.reach.listed_from (o := .query host type (some cb)) trivial eq m1 with h1 | ⟨_, _, _, h1, _⟩
              · exact h1
              · cases h1
            have := (nx.lives hr1 hl1 (fun y my => h.life y (by rw [ep]; simp [my])) b' mb').2
            omega
        obtain ⟨q1, y, q2, dy, cy, ey, ny, hy, hcy, hly⟩ := h.rep r1 x
          (r2 ++ (.send now, .sent 0 m to) :: (.send now', .sent 0 m' to') :: q' ++ [k]) t dx (by rw [ep]; simp) nx.calls hx hknown
          ⟨k, by simp, c, hc, by omega⟩
        rcases List.eq_nil_or_concat q2 with rfl | ⟨q3, z, rfl⟩
        · obtain ⟨_, e2⟩ := List.append_inj' ey rfl
          cases e2
          rw [hc] at hcy
          cases hcy
          omega
        · rw [List.concat_eq_append, ← List.cons_append, ← List.append_assoc] at ey
          obtain ⟨e1, _⟩ := List.append_inj' ey rfl
          have epost : post = (r1 ++ x :: q1) ++ y :: q3 := by
            rw [ep, List.append_assoc, List.cons_append, e1]
            simp
          have hys := I.conf _ y q3 dy cy epost ny hy hcy
          have nz := h'.later
          rw [epost, show (r1 ++ x :: q1) ++ y :: q3 = (r1 ++ [x]) ++ (q1 ++ y :: q3) by simp] at nz
          obtain ⟨dz, Tz, nz1, nz2⟩ := nz.split
          have hz1 := (nz1.clocks x (by simp) cx hcx).2
          have hz2 := (nz2.clocks y (by simp) cy hcy).1
          omega
      obtain ⟨b', mb', hs', hor⟩ := hr'.stays hs e (fun x m => h.life x (by simp_all)) (fun x m => h.und x (by simp_all)) hb0 hT I.mem
        I.same hlt
      by_cases hb : b'.ttl = T + L / 2 + 8
      · refine ⟨b', T, mb', hs', hb, h.later.le, Nat.le_refl _, by omega, ?_, ?_⟩
        · intro p q dq Tq eq nq hlt
          rw [eq] at h
          obtain ⟨_, T2, n2, n3⟩ := h.later.split
          have := n2.det nq
          have := n3.le
          omega
        · intro p x q dq c' eq nq _ hc'
          exact (h.later.clocks x (by rw [eq]; simp) c' hc').2
      · have : b' = b := hor.resolve_right hb
        subst this
        have := I.le
        refine ⟨b', s0, mb', hs', I.ttl, I.start, by omega, hlt, ?_, ?_⟩
        · intro p q dq Tq eq nq hlt
          rcases List.eq_nil_or_concat q with rfl | ⟨q3, z, rfl⟩
          · rw [List.append_nil] at eq
            subst eq
            rw [nq.calls.det h.later.calls]
            exact mb'
          · rw [List.concat_eq_append, ← List.append_assoc] at eq
            exact I.since p q3 dq Tq (List.append_inj' eq rfl).1 nq hlt
        · intro p x q dq c' eq nq hx hc'
          rcases List.eq_nil_or_concat q with rfl | ⟨q3, z, rfl⟩
          · obtain ⟨e1, e2⟩ := List.append_inj' eq rfl
            cases e2
            subst e1
            rw [nq.det h'.later.calls] at hx
            exact absurd hx hk
          · rw [List.concat_eq_append, ← List.cons_append, ← List.append_assoc] at eq
            exact I.conf p x q3 dq c' (List.append_inj' eq rfl).1 nq hx hc'
  · intro h1 h2 now m src a dm eh nm hrr
    rcases List.eq_nil_or_concat h2 with rfl | ⟨h3, z, rfl⟩
    · obtain ⟨e1, _⟩ := List.append_inj' eh rfl
      subst e1
      rw [nm.det h'.later.calls]
      exact .inl (List.ne_nil_of_mem I.mem)
    · rw [List.concat_eq_append, ← List.cons_append, ← List.append_assoc] at eh
      exact hpr h1 h3 now m src a dm (List.append_inj' eh rfl).1 nm hrr

/-- The record is not listed. -/
def Unlisted (c : Core) (host : Bytes) (type : Nat) (b0 : Answer) : Prop := ∀ b ∈ c.listed host type, ¬ SameRec b b0

/-- The record has not been listed so far. -/
def Unseen (env : Env) (d1 : D Ptrs) (host : Bytes) (type : Nat) (b0 : Answer) (post : List Call) : Prop :=
  ∀ p q dq, post = p ++ q → Calls env d1 p dq → Unlisted dq.c host type b0

theorem Steady.stays {env : Env} {d d1 : D Ptrs} {T0 L type cb : Nat} {host : Bytes} {b0 : Answer} {pre : List Call}
    {a : OpOut} (hr : Timed env pre d T0) (hnew : callback d.c.log host type = none)
    (eq : Mdns.step env (.query host type (some cb)) d = .ok (a, d1)) (hpre : SameLife host type L pre)
    (hb0 : b0.is host type = true) (h0 : Unlisted d1.c host type b0) (post : List Call) :
    ∀ {d2 : D Ptrs} {T : Nat}, Steady env d1 T0 host type b0 L post d2 T →
      Prompted env d1 host type post ∧
        (Unseen env d1 host type b0 post ∨ ∃ b s0, Stays env d1 T0 host type b0 L post d2 T b s0) := by
  have hr1 : Reach env d1 := hr.reach.step (o := .query host type (some cb)) trivial eq
  induction post using snoc_induction with
  | nil =>
    intro d2 T _
    refine ⟨?_, .inl ?_⟩
    · intro h1 h2 now m src a d1 e
      exact absurd e (by simp)
    · intro p q dq e n
      have : p = [] := by
        cases p with
        | nil => rfl
        | cons => simp at e
      subst this
      rw [n.of_nil]
      exact h0
  | snoc post k ih =>
    intro d2 T h
    obtain ⟨d', T', h', hs, e, hT, hle⟩ := h.init hr1
    obtain ⟨hpr, hst⟩ := ih h'
    rcases hst with hst | hst
    · have hr' := h'.later.calls.reach' hr1
      refine ⟨?_, ?_⟩
      · intro h1 h2 now m src a dm eh nm hrr
        rcases List.eq_nil_or_concat h2 with rfl | ⟨h3, z, rfl⟩
        · obtain ⟨e1, e2⟩ := List.append_inj' eh rfl
          subst e1
          cases e2
          rcases List.eq_nil_or_concat (askTimes host type post) with h0 | ⟨l, t, hl⟩
          · exact .inr (.inl h0)
          · rw [List.concat_eq_append] at hl
            refine .inr (.inr ⟨l, t, hl, ?_⟩)
            refine Classical.byContradiction fun hge => ?_
            obtain ⟨r1, x, r2, rfl, hx⟩ := mem_split_filterMap (f := Call.askTime host type) (l := post) (b := t) (by
              show t ∈ askTimes host type post
              rw [hl]
              simp)
            obtain ⟨dx, Tx, nx, _⟩ := h'.later.split
            obtain ⟨q1, y, q2, dy, cy, ey, ny, hy, hcy, hly⟩ := h.rep r1 x (r2 ++ [(.recv now m src, a)]) t dx (by simp) nx.calls hx
              (fun b' mb' hb' => absurd hb' (hst r1 (x :: r2) dx rfl nx.calls b' mb'))
              ⟨(.recv now m src, a), by simp, now, rfl, by omega⟩
            rcases List.eq_nil_or_concat q2 with rfl | ⟨q3, z, rfl⟩
            · obtain ⟨_, e2⟩ := List.append_inj' ey rfl
              cases e2
              cases hcy
              omega
            · rw [List.concat_eq_append, ← List.cons_append, ← List.append_assoc] at ey
              obtain ⟨e1, _⟩ := List.append_inj' ey rfl
              -- the confirmation lists the record
              have epost : r1 ++ x :: r2 = (r1 ++ x :: q1) ++ ([y] ++ q3) := by rw [e1]; simp
              have nl := h'.later
              rw [epost] at nl
              obtain ⟨d3, T3, n3, n4⟩ := nl.split
              obtain ⟨d4, T4, n5, _⟩ := n4.split
              have e3 := n3.calls.det ny
              subst e3
              have n5' : Later env d3 T3 ([] ++ [y]) d4 T4 := n5
              obtain ⟨d5, _, n6, hs6, e6, _, _⟩ := n5'.last
              have e7 := n6.calls.of_nil
              subst e7
              obtain ⟨b, mb, hsb, _⟩ := (n3.calls.reach' hr1).confirmed hs6 e6
                (h'.up (r1 ++ x :: q1) ([y] ++ q3) _ epost n3.calls)
                (fun z mz => h'.life z (by rw [epost]; simp_all)) (fun z mz => h'.und z (by rw [epost]; simp_all)) hb0 hy hcy
              exact hst ((r1 ++ x :: q1) ++ [y]) q3 d4 (by rw [epost]; simp) (.snoc n3.calls hs6 e6) b mb hsb
        · rw [List.concat_eq_append, ← List.cons_append, ← List.append_assoc] at eh
          exact hpr h1 h3 now m src a dm (List.append_inj' eh rfl).1 nm hrr
      · by_cases hb : Unlisted d2.c host type b0
        · left
          intro p q dq ep np
          rcases List.eq_nil_or_concat q with rfl | ⟨q3, z, rfl⟩
          · rw [List.append_nil] at ep
            subst ep
            rw [np.det h.later.calls]
            exact hb
          · rw [List.concat_eq_append, ← List.append_assoc] at ep
            exact hst p q3 dq (List.append_inj' ep rfl).1 np
        · right
          have hb : ∃ b ∈ d2.c.listed host type, SameRec b b0 := by
            refine Classical.byContradiction fun hc => hb fun b mb hs => hc ⟨b, mb, hs⟩
          obtain ⟨b, mb, hsb⟩ := hb
          rcases hr'.listed_from hs e mb with m | ⟨now, m, src, ho, r, mr, ha, hr0, _, ht⟩
          · exact absurd hsb (hst post [] d' (by simp) h'.later.calls b m)
          · have hL := (h.life k (by simp) r mr ha).resolve_left hr0
            have hTn : T = now.sec := by
              rw [ho] at hT
              exact hT
            have htt : b.ttl = T + L / 2 + 8 := by
              rw [ht, hTn, ← hL]
              rfl
            refine ⟨b, T, mb, hsb, htt, h.later.le, Nat.le_refl _, by omega, ?_, ?_⟩
            · intro p q dq Tq eq nq hlt
              rw [eq] at h
              obtain ⟨_, T2, n2, n3⟩ := h.later.split
              have := n2.det nq
              have := n3.le
              omega
            · intro p x q dq c' eq nq _ hc'
              exact (h.later.clocks x (by rw [eq]; simp) c' hc').2
    · have := Stays.step hr hnew eq hpre h hb0 hpr fun d3 T3 hh => by
        have e1 := hh.later.calls.det h'.later.calls
        have e2 := hh.later.det h'.later
        subst e1
        subst e2
        exact hst
      exact ⟨this.2, .inr this.1⟩

/-- C84 (`libmdnsd/mdnsd.c:375-390`, `1400-1440`, `libmdnsd/mdnsd.c:580-640`): a record that another host
keeps answering with stays known. The query is registered, the record has been received once, `mdnsd_out`
is called in time, every question that does not list it as known is answered with the record within two seconds, and no
response says that it is gone or replaced: then it is listed after every call from then on, and
has not expired. What is missing: this is proved if the answers to the question that are received all have the
same lifetime, see `C84_shorter_counterexample`. -/
theorem C84_stays_partial {env : Env} {d d1 d2 : D Ptrs} {T0 T L type cb : Nat} {host : Bytes} {b : Answer} {pre post : List Call}
    {evs : List Event} {a : OpOut} (hr : Timed env pre d T0) (hnew : callback d.c.log host type = none)
    (e : Mdns.step env (.query host type (some cb)) d = .ok (a, d1)) (n : Later env d1 T0 post d2 T)
    (hlife : SameLife host type L (pre ++ post)) (hb : b.name = host ∧ (type = b.type ∨ type = 255))
    (h0 : ∀ b' ∈ d1.c.listed host type, ¬ SameRec b' b) (hund : Undisturbed b post) (hrep : Replied env d1 host type b post) (htend : Tended T0 post)
    (hup : ∀ p q d', post = p ++ q → Calls env d1 p d' → d'.c.shutdown = false)
    (hl : d2.c.log = d1.c.log ++ evs) (hreg : .unregistered host type ∉ evs)
    {p q : List Call} {k : Call} {dk : D Ptrs} (hp : post = p ++ k :: q) (nk : Calls env d1 p dk) (hk : Confirms env dk b k.1) :
    ∃ b' ∈ d2.c.listed host type, SameRec b' b ∧ T < b'.ttl := by
  have hb1 := (is_iff _ _ _).mpr hb
  have hr1 : Reach env d1 := hr.reach.step (o := .query host type (some cb)) trivial e
  have st : Steady env d1 T0 host type b L post d2 T := ⟨n, fun x m => hlife x (by simp [m]), hund, hrep, htend, hup, fun ev h => by
      rw [hl] at h
      rw [← List.append_cancel_left h]
      exact hreg⟩
  obtain ⟨_, hst⟩ := Steady.stays hr hnew e (fun x m => hlife x (by simp [m])) hb1 h0 post st
  rcases hst with hst | ⟨b', s0, I⟩
  · -- the confirmation lists the record
    subst hp
    have nl := n
    rw [show p ++ k :: q = p ++ ([k] ++ q) by simp] at nl
    obtain ⟨d3, T3, n3, n4⟩ := nl.split
    obtain ⟨d4, T4, n5, _⟩ := n4.split
    have e3 := n3.calls.det nk
    subst e3
    have n5' : Later env d3 T3 ([] ++ [k]) d4 T4 := n5
    obtain ⟨d5, _, n6, hs6, e6, _, _⟩ := n5'.last
    have e7 := n6.calls.of_nil
    subst e7
    obtain ⟨c, hc⟩ := hk.recv
    obtain ⟨b', mb, hsb, _⟩ := (n3.calls.reach' hr1).confirmed hs6 e6 (hup p (k :: q) _ rfl n3.calls)
      (fun z mz => st.life z (by simp_all)) (fun z mz => hund z (by simp_all)) hb1 hk hc
    exact absurd hsb (hst (p ++ [k]) q d4 (by simp) (.snoc n3.calls hs6 e6) b' mb)
  · exact ⟨b', I.mem, I.same, I.live⟩

/-! ### Samples -/

namespace Sample

theorem safe_take {env : Env} : ∀ (ops : List Op) {d : D Ptrs} (j : Nat), safeRunB env d ops = true → safeRunB env d (ops.take j) = true ∧
    (trace env (ops.take j) d).1 = (trace env ops d).1.take j
  | [], d, j, h => by simp [trace, h]
  | o :: ops, d, 0, h => ⟨by simp [safeRunB], by simp [trace]⟩
  | o :: ops, d, j + 1, h => by
    rw [List.take_succ_cons]
    unfold safeRunB at h ⊢
    rw [Bool.and_eq_true] at h ⊢
    unfold trace
    cases e : Mdns.step env o d with
    | ok p =>
      have h2 := h.2
      rw [e] at h2
      have := safe_take ops j h2
      exact ⟨⟨h.1, this.1⟩, by simp [this.2]⟩
    | ub => rw [e] at h; cases h.2
    | hang => rw [e] at h; cases h.2

theorem calls_take {ops : List Op} {d : D Ptrs} (h : safeRunB quiet d ops = true) (j : Nat) :
    Calls quiet d ((trace quiet ops d).1.take j) (trace quiet (ops.take j) d).2 := by
  obtain ⟨h1, h2⟩ := safe_take ops j h
  rw [← h2]
  simpa using trace_calls (ops.take j) h1 [] d .nil

/-- Whether a call confirms a record. -/
def confirmsB (b : Answer) (d : D Ptrs) : Op → Bool
  | .recv _ m src => m.header.qr && src == other && d.c.addr != #v[10, 0, 0, 9] && m.an.any fun r => carries r b && r.ttl != 0
  | _ => false

theorem confirms_of {b : Answer} {d : D Ptrs} {o : Op} (h : confirmsB b d o = true) : Confirms quiet d b o := by
  unfold confirmsB at h
  split at h
  · rename_i now m src
    simp only [Bool.and_eq_true, List.any_eq_true, beq_iff_eq, bne_iff_ne] at h
    obtain ⟨⟨⟨h1, rfl⟩, h3⟩, r, mr, h4, h5⟩ := h
    exact ⟨now, m, other, r, rfl, h1, elsewhere h3, mr, h4, h5⟩
  · cases h

/-- Whether a call comes after a time. -/
def afterB (t : Nat) (k : Call) : Bool := match k.1.clock with
  | some c => decide (t < c.sec)
  | none => false

/-- Whether every question is answered. -/
def repliedB (host : Bytes) (type : Nat) (b : Answer) (ops : List Op) (d : D Ptrs) : Bool :=
  (List.range ops.length).all fun i => match ((trace quiet ops d).1[i]?).bind (Call.askTime host type) with
    | none => true
    | some t => !(((trace quiet ops d).1.drop (i + 1)).any (afterB (t + 2))) ||
      ((trace quiet (ops.take i) d).2.c.listed host type).any (fun b' => decide (t + 8 < b'.ttl ∧ b'.name = b.name ∧ b'.type = 12 ∧ b.type = 12 ∧
        b'.rdname = b.rdname)) ||
      (List.range ops.length).any fun j => decide (i < j) && match (trace quiet ops d).1[j]? with
        | some k => confirmsB b (trace quiet (ops.take j) d).2 k.1 && !afterB (t + 2) k
        | none => false

theorem trace_length {env : Env} : ∀ (ops : List Op) {d : D Ptrs}, safeRunB env d ops = true → (trace env ops d).1.length = ops.length
  | [], d, _ => rfl
  | o :: ops, d, h => by
    unfold safeRunB at h
    rw [Bool.and_eq_true] at h
    unfold trace
    cases e : Mdns.step env o d with
    | ok p =>
      have h2 := h.2
      rw [e] at h2
      simp [trace_length ops h2]
    | ub => rw [e] at h; cases h.2
    | hang => rw [e] at h; cases h.2

theorem replied_in {host : Bytes} {type : Nat} {b : Answer} {ops : List Op} {d : D Ptrs} (hs : safeRunB quiet d ops = true)
    (h : repliedB host type b ops d = true) : Replied quiet d host type b (trace quiet ops d).1 := by
  intro p k q t dp eh np ha hkn ⟨k', mk, c, hc, hlt⟩
  have hlen := trace_length ops hs
  unfold repliedB at h
  rw [List.all_eq_true] at h
  have hi : p.length < ops.length := by rw [← hlen, eh]; simp
  have h := h p.length (by simp [hi])
  have e1 : (trace quiet ops d).1[p.length]? = some k := by rw [eh]; simp
  rw [e1] at h
  simp only [Option.bind_some, ha] at h
  rw [Bool.or_eq_true, Bool.or_eq_true] at h
  rcases h with (h | h) | h
  · have : (trace quiet ops d).1.drop (p.length + 1) = q := by rw [eh]; simp
    rw [this] at h
    have : q.any (afterB (t + 2)) = true := by
      rw [List.any_eq_true]
      exact ⟨k', mk, by unfold afterB; rw [hc]; simp [hlt]⟩
    rw [this] at h
    cases h
  · have n' := calls_take hs p.length
    have : (trace quiet ops d).1.take p.length = p := by rw [eh]; simp
    rw [this] at n'
    rw [n'.det np, List.any_eq_true] at h
    obtain ⟨b', mb, h⟩ := h
    rw [decide_eq_true_iff] at h
    obtain ⟨h1, h2, h3, h4, h5⟩ := h
    have := hkn b' mb ⟨h2, h3.trans h4.symm, by unfold sameData; rw [h3]; exact h5⟩
    omega
  · rw [List.any_eq_true] at h
    obtain ⟨j, mj, h⟩ := h
    rw [Bool.and_eq_true, decide_eq_true_iff] at h
    obtain ⟨hij, h⟩ := h
    split at h
    · rename_i y hy
      rw [Bool.and_eq_true] at h
      have hcf := confirms_of h.1
      obtain ⟨cy, hcy⟩ := hcf.recv
      have hle : cy.sec ≤ t + 2 := by
        have := h.2
        unfold afterB at this
        rw [hcy] at this
        simpa using this
      have hj : j < (trace quiet ops d).1.length := by
        rw [hlen]
        simpa using mj
      have hsplit : (trace quiet ops d).1 = (trace quiet ops d).1.take j ++ y :: (trace quiet ops d).1.drop (j + 1) := by
        rw [List.getElem?_eq_getElem hj] at hy
        cases hy
        rw [List.getElem_cons_drop, List.take_append_drop]
      have n := calls_take hs j
      have ep : (trace quiet ops d).1.take j = p ++ k :: (q.take (j - p.length - 1)) := by
        rw [eh, List.take_append]
        have h1 : List.take j p = p := List.take_of_length_le (by omega)
        have h2 : j - p.length = (j - p.length - 1) + 1 := by omega
        rw [h1, h2, List.take_succ_cons]
        simp
      refine ⟨q.take (j - p.length - 1), y, (trace quiet ops d).1.drop (j + 1), _, cy, ?_, ep ▸ n, hcf, hcy, hle⟩
      rw [ep] at hsplit
      have hs2 := eh.symm.trans hsplit
      simpa using hs2
    · cases h

/-- A call of `mdnsd_out` that finds nothing to send. -/
def idleB (s : Nat) : Call → Bool
  | (.send now, .sent ret _ _) => decide (s ≤ now.sec) && decide (now.sec ≤ s + 1) && decide (ret = 0)
  | _ => false

/-- Whether `mdnsd_out` is called often enough, up to a time. -/
def tendedB (T T' : Nat) (h : List Call) : Bool :=
  (List.range T').all fun s => decide (s < T) || decide (T' < s + 2) ||
    (List.range h.length).any fun i => match h[i]?, h[i + 1]? with
      | some k, some k' => idleB s k && idleB s k'
      | _, _ => false

theorem idle_shape {s : Nat} {k : Call} (h : idleB s k = true) :
    ∃ now m to, k = (.send now, .sent 0 m to) ∧ s ≤ now.sec ∧ now.sec ≤ s + 1 := by
  unfold idleB at h
  split at h
  · simp only [Bool.and_eq_true, decide_eq_true_iff] at h
    obtain ⟨⟨h1, h2⟩, rfl⟩ := h
    exact ⟨_, _, _, rfl, h1, h2⟩
  · cases h

theorem tended_in {T T' : Nat} {d d' : D Ptrs} {h : List Call} (n : Later quiet d T h d' T') (ht : tendedB T T' h = true) : Tended T h := by
  rintro s hs ⟨k, mk, c, hc, hlt⟩
  have := (n.clocks k mk c hc).2
  unfold tendedB at ht
  rw [List.all_eq_true] at ht
  have ht := ht s (by simp; omega)
  simp only [Bool.or_eq_true, decide_eq_true_iff] at ht
  rcases ht with (ht | ht) | ht
  · omega
  · omega
  · rw [List.any_eq_true] at ht
    obtain ⟨i, mi, ht⟩ := ht
    split at ht
    · rename_i x y hx hy
      rw [Bool.and_eq_true] at ht
      obtain ⟨now, m, to, rfl, h1, _⟩ := idle_shape ht.1
      obtain ⟨now', m', to', rfl, _, h2⟩ := idle_shape ht.2
      obtain ⟨hi, ex⟩ := List.getElem?_eq_some_iff.mp hx
      obtain ⟨hi', ey⟩ := List.getElem?_eq_some_iff.mp hy
      refine ⟨h.take i, now, m, to, now', m', to', h.drop (i + 2), ?_, h1, h2⟩
      rw [← ex, ← ey, List.getElem_cons_drop, List.getElem_cons_drop, List.take_append_drop]
    · cases ht

/-- Whether it never shuts down. -/
def upB (ops : List Op) (d : D Ptrs) : Bool :=
  (List.range (ops.length + 1)).all fun j => !(trace quiet (ops.take j) d).2.c.shutdown

theorem up_in {ops : List Op} {d : D Ptrs} (hs : safeRunB quiet d ops = true) (h : upB ops d = true) :
    ∀ p q d', (trace quiet ops d).1 = p ++ q → Calls quiet d p d' → d'.c.shutdown = false := by
  intro p q d' e n
  have hlen := trace_length ops hs
  have n' := calls_take hs p.length
  have : (trace quiet ops d).1.take p.length = p := by rw [e]; simp
  rw [this] at n'
  rw [n.det n']
  unfold upB at h
  rw [List.all_eq_true] at h
  have := h p.length (by
    have : p.length ≤ ops.length := by rw [← hlen, e]; simp
    simp; omega)
  simpa using this

/-- `mdnsd_out` is called three times. -/
def thrice (t : Nat) : List Op := [.send (at_ t), .send (at_ t), .send (at_ t)]

/-- A response with the record. -/
def say (t ttl : Nat) : Op := .recv (at_ t) { ptrMsg 10 with an := [ptrTo 98 1 ttl] } other

/-- A record with a lifetime of twenty seconds is asked for, and there is an answer unless it is listed as known. -/
def faithful : List Op := [.send (at_ 100), say 100 20] ++ thrice 101 ++ thrice 103 ++ thrice 105 ++ thrice 107 ++
  thrice 109 ++ thrice 111 ++ [say 112 20] ++ thrice 113 ++ thrice 115 ++ thrice 117 ++ thrice 119 ++ thrice 121 ++ thrice 123 ++ thrice 125

/-- A record with a long lifetime is asked for, and there is always an answer; then it is received with a short lifetime. -/
def dwindling : List Op := [.send (at_ 100), say 100 200] ++ thrice 101 ++ thrice 103 ++ thrice 105 ++
  thrice 107 ++ thrice 109 ++ [say 110 10] ++ thrice 111 ++ thrice 113 ++ thrice 115 ++ thrice 117 ++ thrice 119 ++ thrice 121 ++ thrice 123 ++
  thrice 125 ++ [.recv (at_ 125) { ptrMsg 10 with an := [⟨nm 97, 1, flush, 10, [10, 0, 0, 9], .a [10, 0, 0, 9]⟩] } other]

/-- The record as it is stored. -/
def stored : Answer := Core.newEntry (ptrTo 98 1 20) other 0

/-- What can be computed of the hypotheses of the theorem. -/
structure Steadily (ops : List Op) : Prop where
  safe : safeRunB quiet asking1 ops = true
  clock : clockB ops 100 = some 125
  rep : repliedB (nm 97) 12 stored ops asking1 = true
  tend : tendedB 100 125 (trace quiet ops asking1).1 = true
  up : upB ops asking1 = true
  log : Event.unregistered (nm 97) 12 ∉ (trace quiet ops asking1).2.c.log
  first : ((trace quiet ops asking1).1[1]?).map (confirmsB stored (trace quiet (ops.take 1) asking1).2 ·.1) = some true

end Sample

open Sample in
/-- The hypotheses of `C84_stays_partial` but for those about the answers. -/
theorem Sample.steadily_of {ops : List Op} (h : Steadily ops) :
    ∃ a d1 d2 evs p k q dk, Timed quiet [] fresh 100 ∧ callback fresh.c.log (nm 97) 12 = none ∧
      Mdns.step quiet (.query (nm 97) 12 (some 7)) fresh = .ok (a, d1) ∧ d1 = asking1 ∧ d2 = (trace quiet ops asking1).2 ∧
      Later quiet d1 100 (trace quiet ops asking1).1 d2 125 ∧ (stored.name = nm 97 ∧ (12 = stored.type ∨ 12 = 255)) ∧ (∀ b' ∈ d1.c.listed (nm 97) 12, ¬ SameRec b' stored) ∧
      Replied quiet d1 (nm 97) 12 stored (trace quiet ops asking1).1 ∧ Tended 100 (trace quiet ops asking1).1 ∧
      (∀ p q d', (trace quiet ops asking1).1 = p ++ q → Calls quiet d1 p d' → d'.c.shutdown = false) ∧
      d2.c.log = d1.c.log ++ evs ∧ .unregistered (nm 97) 12 ∉ evs ∧
      (trace quiet ops asking1).1 = p ++ k :: q ∧ Calls quiet d1 p dk ∧ Confirms quiet dk stored k.1 := by
  obtain ⟨a, e1⟩ := asking1_step
  have n := later_in h.safe h.clock
  have hr1 : Reach quiet asking1 := (Reach.new ..).step (o := .query (nm 97) 12 (some 7)) trivial e1
  obtain ⟨ev, hl⟩ := n.calls.log hr1
  have hlog := h.log
  have hf := h.first
  cases hk : (trace quiet ops asking1).1[1]? with
  | none => rw [hk] at hf; cases hf
  | some k =>
    rw [hk] at hf
    simp only [Option.map_some, Option.some.injEq] at hf
    obtain ⟨hi, ek⟩ := List.getElem?_eq_some_iff.mp hk
    refine ⟨a, asking1, _, ev, _, k, (trace quiet ops asking1).1.drop 2, _, ⟨1, 1500, at_ 100, by decide, .nil⟩, by decide +kernel, e1, rfl, rfl, n,
      by decide +kernel, fun b' mb => absurd mb (by rw [show asking1.c.listed (nm 97) 12 = [] by decide +kernel]; simp), replied_in h.safe h.rep, tended_in n h.tend, up_in h.safe h.up, hl, fun m => hlog (by rw [hl]; simp [m]), ?_,
      calls_take h.safe 1, confirms_of hf⟩
    rw [← ek, List.getElem_cons_drop, List.take_append_drop]

open Sample in
/-- C84: a record with a lifetime of twenty seconds that is first received at 100 is known at 125. -/
example : ∃ a d d1 d2 evs p k q dk post, Timed quiet [] d 100 ∧ callback d.c.log (nm 97) 12 = none ∧
      Mdns.step quiet (.query (nm 97) 12 (some 7)) d = .ok (a, d1) ∧ Later quiet d1 100 post d2 125 ∧ SameLife (nm 97) 12 20 ([] ++ post) ∧
      (stored.name = nm 97 ∧ (12 = stored.type ∨ 12 = 255)) ∧ (∀ b' ∈ d1.c.listed (nm 97) 12, ¬ SameRec b' stored) ∧ Undisturbed stored post ∧
      Replied quiet d1 (nm 97) 12 stored post ∧ Tended 100 post ∧
      (∀ p q d', post = p ++ q → Calls quiet d1 p d' → d'.c.shutdown = false) ∧
      d2.c.log = d1.c.log ++ evs ∧ .unregistered (nm 97) 12 ∉ evs ∧
      post = p ++ k :: q ∧ Calls quiet d1 p dk ∧ Confirms quiet dk stored k.1 ∧
      (d2.c.listed (nm 97) 12).map (·.ttl) = [130] := by
  obtain ⟨a, d1, d2, evs, p, k, q, dk, h1, h2, h3, rfl, rfl, h4, h5, h6, h7, h8, h9, h10, h11, h12, h13, h14⟩ :=
    steadily_of (ops := faithful) (by
      refine ⟨by decide +kernel, by decide +kernel, by decide +kernel, by decide +kernel, by decide +kernel, by decide +kernel, by decide +kernel⟩)
  exact ⟨a, fresh, asking1, _, evs, p, k, q, dk, _, h1, h2, h3, h4, by unfold SameLife Resource.answers; decide +kernel, h5, h6,
    by unfold Undisturbed; decide +kernel, h7, h8, h9, h10, h11, h12, h13, h14, by decide +kernel⟩

open Sample in
/-- C84: when the record is received with a shorter lifetime than before, it may expire without being
asked for again: refreshing a known record does not change when the question is asked next. Here every question is
answered in time, and the record is lost. -/
theorem C84_shorter_counterexample : ∃ a d d1 d2 evs p k q dk post, Timed quiet [] d 100 ∧ callback d.c.log (nm 97) 12 = none ∧
      Mdns.step quiet (.query (nm 97) 12 (some 7)) d = .ok (a, d1) ∧ Later quiet d1 100 post d2 125 ∧
      (stored.name = nm 97 ∧ (12 = stored.type ∨ 12 = 255)) ∧ (∀ b' ∈ d1.c.listed (nm 97) 12, ¬ SameRec b' stored) ∧ Undisturbed stored post ∧
      Replied quiet d1 (nm 97) 12 stored post ∧ Tended 100 post ∧
      (∀ p q d', post = p ++ q → Calls quiet d1 p d' → d'.c.shutdown = false) ∧
      d2.c.log = d1.c.log ++ evs ∧ .unregistered (nm 97) 12 ∉ evs ∧
      post = p ++ k :: q ∧ Calls quiet d1 p dk ∧ Confirms quiet dk stored k.1 ∧
      d2.c.listed (nm 97) 12 = [] := by
  obtain ⟨a, d1, d2, evs, p, k, q, dk, h1, h2, h3, rfl, rfl, h4, h5, h6, h7, h8, h9, h10, h11, h12, h13, h14⟩ :=
    steadily_of (ops := dwindling) (by
      refine ⟨by decide +kernel, by decide +kernel, by decide +kernel, by decide +kernel, by decide +kernel, by decide +kernel, by decide +kernel⟩)
  exact ⟨a, fresh, asking1, _, evs, p, k, q, dk, _, h1, h2, h3, h4, h5, h6,
    by unfold Undisturbed; decide +kernel, h7, h8, h9, h10, h11, h12, h13, h14, by decide +kernel⟩

end Mdns
