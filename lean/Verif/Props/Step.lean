import Verif.Model.Step
import Verif.Lemmas.Draining
import Verif.Props.Isolation
import Verif.Props.Records

/-!
# C61, C62: `mdnsd_step`

One step takes in the datagrams that wait, makes packets until there is nothing more to send, and
says how long to wait.
-/

namespace Mdns

/-! ### Specification -/

/-- Parsing the datagrams in the receive buffer, one after another, never leaves the buffer. -/
def Inside : List Datagram → (Nat → UInt8) → Prop
  | [], _ => True
  | g :: rest, buf =>
    let buf := fun i => if i = maxPacketLen then 0 else received buf (g.data.take maxPacketLen) i
    messageParse ⟨recvSize, buf⟩ structCap ≠ .oob ∧ Inside rest buf

/-- The packets of a sequence of calls. -/
def packetsOf (h : List Call) : List (Out × Addr) :=
  h.filterMap fun k => match k.2 with
    | .sent ret m to => if ret = 0 then none else some (m, to)
    | _ => none

/-- Calls `mdnsd_step` is made of. -/
def Op.ofStep : Op → Bool
  | .recv .. => true
  | .send _ => true
  | .sleep _ => true
  | .stepEnd => true
  | _ => false

/-! ### Receiving -/

theorem Calls.just {env : Env} {d d' : D Ptrs} {o : Op} {a : OpOut} (hs : OpSafe env d.c d.q.walk o)
    (e : Mdns.step env o d = .ok (a, d')) : Calls env d [(o, a)] d' := .snoc (h := []) .nil hs e

theorem recv_call {env : Env} {d : D Ptrs} (h : Reach env d) {b : RBuf} {cap : Nat} {m : Msg}
    (hm : messageParse b cap = .ok m) (now : TV) (src : Addr) :
    ∃ ret d', inMsg env now m src d = .ok (ret, d') ∧ Calls env d [(.recv now m src, .unit)] d' := by
  obtain ⟨l, hr⟩ := h.rep
  have hs : OpSafe env d.c d.q.walk (.recv now m src) := messageParse_wf hm
  obtain ⟨a, d', _, e, _, _⟩ := hr.step (.recv now m src) hs
  have e0 : (inMsg env now m src >>= fun _ => pure OpOut.unit) d = .ok (a, d') := e
  cases e1 : inMsg env now m src d with
  | ok p =>
    obtain ⟨ret, d1⟩ := p
    rw [M.bind_ok e1] at e0
    cases e0
    exact ⟨ret, _, rfl, .just hs e⟩
  | ub => simp only [Bind.bind, e1] at e0; cases e0
  | hang => simp only [Bind.bind, e1] at e0; cases e0

theorem send_call {env : Env} (hk : env.KeepOnExpiry) {d : D Ptrs} (h : Reach env d) (now : TV) :
    ∃ ret m to d', outMsg env now d = .ok ((ret, m, to), d') ∧ Calls env d [(.send now, .sent ret m to)] d' ∧
      OutMsg env { d.c with now := now } d.lists ret m to d'.c d'.lists := by
  obtain ⟨l, hr⟩ := h.rep
  have hs : OpSafe env d.c d.q.walk (.send now) := .inl hk
  obtain ⟨a, d', _, e, _, _⟩ := hr.step (.send now) hs
  have e0 : (outMsg env now >>= fun x => match x with | (ret, m, to) => pure (OpOut.sent ret m to)) d = .ok (a, d') := e
  cases e1 : outMsg env now d with
  | ok p =>
    obtain ⟨⟨ret, m, to⟩, d1⟩ := p
    rw [M.bind_ok e1] at e0
    cases e0
    have hd := h.did hs e
    refine ⟨ret, m, to, d', rfl, .just hs e, ?_⟩
    generalize d'.c = c', d'.lists = l' at hd
    cases hd with
    | send n => exact n
  | ub => simp only [Bind.bind, e1] at e0; cases e0
  | hang => simp only [Bind.bind, e1] at e0; cases e0

theorem processIn_calls {env : Env} {failed : Bool} : ∀ (gs : List Datagram) (buf : Nat → UInt8) {d : D Ptrs}, Reach env d →
    Inside gs buf → ∃ rc h d', processIn env failed gs buf d = .ok (rc, d') ∧ Calls env d h d' ∧ packetsOf h = [] ∧
      (∀ k ∈ h, k.1.ofStep = true) ∧ (rc = 0 ∨ rc = 1)
  | [], buf, d, _, _ => ⟨_, [], d, rfl, .nil, rfl, (by intro _ m; cases m), by split <;> simp⟩
  | g :: rest, buf, d, h, ⟨h1, h2⟩ => by
    unfold processIn
    by_cases e : g.data = []
    · rw [if_pos e]
      exact ⟨0, [], d, rfl, .nil, rfl, (by intro _ m; cases m), .inl rfl⟩
    · rw [if_neg e]
      cases e1 : messageParse ⟨recvSize, fun i => if i = maxPacketLen then 0 else received buf (g.data.take maxPacketLen) i⟩ structCap with
      | ok m =>
        obtain ⟨ret, d1, e2, n1⟩ := recv_call h e1 g.clock g.src
        obtain ⟨rc, hh, d2, e3, n2, p2, o2, r2⟩ := processIn_calls rest _ (n1.reach h) h2
        refine ⟨rc, _, d2, ?_, n1.append n2, p2, ?_, r2⟩
        · dsimp only
          rw [M.bind_ok e2]
          exact e3
        · intro k m
          rcases List.mem_append.mp m with m | m
          · cases List.mem_singleton.mp m
            rfl
          · exact o2 k m
      | fail => exact processIn_calls rest _ h h2
      | oob => exact absurd e1 h1
      | wub => exact absurd e1 (C05_parse_writes_inside _)
      | hang => exact absurd e1 (C04_parse_terminates _)

/-! ### Sending -/

theorem le_sumTo {f : Nat → Nat} {q : Nat} : ∀ n, q < n → f q ≤ sumTo f n
  | 0, hn => absurd hn (Nat.not_lt_zero _)
  | n + 1, hn => by
    unfold sumTo
    by_cases e : q = n
    · subst e; omega
    · have := le_sumTo (f := f) n (show q < n by omega)
      omega

theorem le_sum {a : Nat} : ∀ {l : List Nat}, a ∈ l → a ≤ l.sum
  | b :: l, m => by
    rw [List.sum_cons]
    rcases List.mem_cons.mp m with rfl | m
    · omega
    · have := le_sum m
      omega

theorem exists_until {c : Core} (h : CInv c) : ∃ M, Until M c := by
  refine ⟨sumTo (fun i => ((c.rrs i).map (·.ttl)).sum) lprime, fun j a m => ?_⟩
  have hj : j < lprime := by
    obtain ⟨e, me, rfl⟩ := List.mem_map.mp m
    rw [← h.cbucket j e me]
    exact bucket_lt _ _ lprime_pos
  have h1 := le_sum (List.mem_map_of_mem (f := (·.ttl)) m)
  have h2 := le_sumTo (f := fun i => ((c.rrs i).map (·.ttl)).sum) lprime hj
  exact Nat.le_trans h1 h2

/-- Packets with records, as opposed to questions. -/
def bearing (ms : List (Out × Addr)) : Nat := (ms.filter fun p => decide (p.1.tags ≠ [])).length

theorem processOut_ends {env : Env} (hk : env.KeepOnExpiry) {clock : Nat → TV} {accepted : Nat → Bool}
    (hc : ∀ k, (clock k).sec ≤ (clock (k + 1)).sec) (T : Nat) : ∀ (a b s : Nat) (k : Nat) (d : D Ptrs), Reach env d →
    Until T d.c → load d.c d.lists = a → cacheSize d.c = b → leftOver T { d.c with now := clock k } = s →
    ∃ N rc ms h d', (∀ fuel, N ≤ fuel → processOut env clock accepted fuel k d = .ok ((rc, ms), d')) ∧ Calls env d h d' ∧
      packetsOf h = ms ∧ (∀ k ∈ h, k.1.ofStep = true) ∧ bearing ms ≤ a ∧ (rc = 0 ∨ rc = 2) ∧ (rc = 0 → d'.c.uanswers = []) := by
  intro a
  induction a using Nat.strongRecOn with
  | ind a iha =>
  intro b
  induction b using Nat.strongRecOn with
  | ind b ihb =>
  intro s
  induction s using Nat.strongRecOn with
  | ind s ihs =>
  intro k d h hM ea eb es
  obtain ⟨ret, m, to, d1, e1, n1, n⟩ := send_call hk h (clock k)
  have h1 := n1.reach h
  have i := h.inv
  have i' := h1.inv
  have ir : RInv { d.c with now := clock k } d.lists := i.rinv.congr rfl rfl rfl
  by_cases hret : ret = 0
  · subst hret
    refine ⟨1, 0, [], [(.send (clock k), .sent 0 m to)], d1, ?_, n1, rfl, ?_, Nat.zero_le _, .inl rfl, fun _ => ?_⟩
    · intro fuel hf
      obtain ⟨fuel, rfl⟩ : ∃ f, fuel = f + 1 := ⟨fuel - 1, by omega⟩
      unfold processOut
      rw [M.bind_ok e1]
      rfl
    · intro k m
      cases List.mem_singleton.mp m
      rfl
    · have hu := n.uans
      cases hq : d.c.uanswers with
      | nil =>
        cases e : d1.c.uanswers with
        | nil => rfl
        | cons u us =>
          have hm : u ∈ d.c.uanswers := hu u (by rw [e]; simp)
          rw [hq] at hm
          cases hm
      | cons u us =>
        exfalso
        generalize d1.c = c', d1.lists = l' at n
        generalize hz : (0 : Nat) = z at n
        cases n with
        | unicast => cases hz
        | shutdown e => rw [show d.c.uanswers = [] from e] at hq; cases hq
        | normal e => rw [show d.c.uanswers = [] from e] at hq; cases hq
  · have hload := n.load_le h.uni ir i'.rinv
    have hdec := n.drains (M := T) h.uni ir i'.rinv h.tries hM hret
    have hM1 : Until T d1.c := fun j a ma => hM j a (n.asking.sub j a ma)
    have hnow : d1.c.now = clock k := n.asking.now
    have hstep : ∀ out : Nat × List (Out × Addr), ∀ d', (∀ N, (∀ fuel, N ≤ fuel → processOut env clock accepted fuel (k + 1) d1 = .ok (out, d')) →
        accepted k = true → ∀ fuel, N + 1 ≤ fuel →
          processOut env clock accepted fuel k d = .ok ((out.1, (m, to) :: out.2), d')) := by
      intro out d' N hN ha fuel hf
      obtain ⟨fuel, rfl⟩ : ∃ f, fuel = f + 1 := ⟨fuel - 1, by omega⟩
      unfold processOut
      rw [M.bind_ok e1]
      dsimp only
      rw [if_neg hret, if_pos ha, M.bind_ok (hN fuel (by omega))]
      rfl
    by_cases ha : accepted k = true
    · have go : ∃ N rc ms h d', (∀ fuel, N ≤ fuel → processOut env clock accepted fuel (k + 1) d1 = .ok ((rc, ms), d')) ∧
          Calls env d1 h d' ∧ packetsOf h = ms ∧ (∀ k ∈ h, k.1.ofStep = true) ∧ bearing ms ≤ load d1.c d1.lists ∧
          (rc = 0 ∨ rc = 2) ∧ (rc = 0 → d'.c.uanswers = []) := by
        have hl : leftOver T { d1.c with now := clock (k + 1) } ≤ leftOver T d1.c :=
          leftOver_mono (by rw [hnow]; exact hc k)
        have ea' : load { d.c with now := clock k } d.lists = a := ea
        have eb' : cacheSize { d.c with now := clock k } = b := eb
        rcases hdec with h2 | ⟨h2, h3 | ⟨h3, h4⟩⟩
        · exact iha _ (by omega) _ _ (k + 1) d1 h1 hM1 rfl rfl rfl
        · by_cases hlt : load d1.c d1.lists < a
          · exact iha _ hlt _ _ (k + 1) d1 h1 hM1 rfl rfl rfl
          · have : load d1.c d1.lists = a := by omega
            rw [this]
            exact ihb _ (by omega) _ (k + 1) d1 h1 hM1 this rfl rfl
        · by_cases hlt : load d1.c d1.lists < a
          · exact iha _ hlt _ _ (k + 1) d1 h1 hM1 rfl rfl rfl
          · have : load d1.c d1.lists = a := by omega
            rw [this]
            exact ihs _ (by omega) (k + 1) d1 h1 hM1 this (by omega) rfl
      obtain ⟨N, rc, ms, hh, d', hN, n2, p2, o2, b2, r2, u2⟩ := go
      refine ⟨N + 1, rc, (m, to) :: ms, _, d', hstep (rc, ms) d' N hN ha, n1.append n2, ?_, ?_, ?_, r2, u2⟩
      · show packetsOf ([(Op.send (clock k), OpOut.sent ret m to)] ++ hh) = _
        unfold packetsOf at p2 ⊢
        rw [List.filterMap_append, p2]
        simp [hret]
      · intro k' mk
        rcases List.mem_append.mp mk with mk | mk
        · cases List.mem_singleton.mp mk
          rfl
        · exact o2 k' mk
      · have ea' : load { d.c with now := clock k } d.lists = a := ea
        by_cases ht : m.tags = []
        · have : bearing ((m, to) :: ms) = bearing ms := by simp [bearing, ht]
          have := hload.1
          omega
        · have : bearing ((m, to) :: ms) = bearing ms + 1 := by simp [bearing, ht]
          have := hload.2 ht
          omega
    · refine ⟨1, 2, [(m, to)], _, d1, ?_, n1, by simp [packetsOf, hret], ?_, ?_, .inr rfl, by simp⟩
      · intro fuel hf
        obtain ⟨fuel, rfl⟩ : ∃ f, fuel = f + 1 := ⟨fuel - 1, by omega⟩
        unfold processOut
        rw [M.bind_ok e1]
        dsimp only
        rw [if_neg hret, if_neg ha]
        rfl
      · intro k' mk
        cases List.mem_singleton.mp mk
        rfl
      · have ea' : load { d.c with now := clock k } d.lists = a := ea
        by_cases ht : m.tags = []
        · simp [bearing, ht]
        · have : bearing [(m, to)] = 1 := by simp [bearing, ht]
          have := hload.2 ht
          omega

theorem sumTo_pull {f : Nat → Nat} {r : Nat} : ∀ n, sumTo f n ≤ f r + sumTo (fun s => if s = r then 0 else f s) n
  | 0 => Nat.zero_le _
  | n + 1 => by
    unfold sumTo
    have := sumTo_pull (f := f) (r := r) n
    by_cases e : n = r
    · subst e
      have h : sumTo f n = sumTo (fun s => if s = n then 0 else f s) n := by
        have : ∀ m, m ≤ n → sumTo f m = sumTo (fun s => if s = n then 0 else f s) m := by
          intro m
          induction m with
          | zero => intro _; rfl
          | succ m ih =>
            intro hm
            unfold sumTo
            rw [ih (by omega), if_neg (by omega)]
        exact this n (Nat.le_refl _)
      rw [if_pos rfl]
      omega
    · rw [if_neg e]
      omega

theorem sumTo_support {b n : Nat} : ∀ {f : Nat → Nat} {rs : List Nat}, (∀ r, f r ≠ 0 → r ∈ rs) → (∀ r, f r ≤ b) →
    sumTo f n ≤ b * rs.length
  | f, [], h, _ => by
    have : ∀ m, sumTo f m = 0 := by
      intro m
      induction m with
      | zero => rfl
      | succ m ih =>
        unfold sumTo
        rw [ih]
        refine Classical.byContradiction fun e => ?_
        cases h m (by omega)
    rw [this]
    exact Nat.zero_le _
  | f, r :: rs, h, hb => by
    have h1 := sumTo_pull (f := f) (r := r) n
    have h2 := sumTo_support (b := b) (n := n) (f := fun s => if s = r then 0 else f s) (rs := rs)
      (by
        intro s hs
        split at hs
        · exact absurd rfl hs
        · rename_i e
          rcases List.mem_cons.mp (h s hs) with e' | m
          · exact absurd e' e
          · exact m)
      (by
        intro s
        split
        · exact Nat.zero_le _
        · exact hb s)
    have h3 := hb r
    rw [List.length_cons, Nat.mul_succ]
    omega

/-- What waits is bounded by the records and unicast answers there are. -/
theorem load_live {c : Core} {l : Lists} (h : RInv c l) : load c l ≤ c.uanswers.length + 9 * c.allPublished.length := by
  refine Nat.add_le_add_left (sumTo_support (fun r hr => ?_) fun r => View.weight_le _) _
  cases hx : c.recs r with
  | none =>
    rw [view_none h hx] at hr
    exact absurd rfl hr
  | some x => exact h.mem_all hx

/-! ### Theorems -/

/-- C61, sending: from any state, the loop that makes and sends packets ends, after at most one
packet with records for every pending unicast answer and nine for every record; the packets handed
to the socket are exactly the ones of the calls of `mdnsd_out`, and unless sending fails no unicast
answer is left.  The clock must not go back, and answer callbacks must not end a query when a
record expires (C28). -/
theorem C61_out_ends_partial {env : Env} (hk : env.KeepOnExpiry) {d : D Ptrs} (h : Reach env d) {clock : Nat → TV}
    (hc : ∀ k, (clock k).sec ≤ (clock (k + 1)).sec) (accepted : Nat → Bool) :
    ∃ N rc ms hs d', (∀ fuel, N ≤ fuel → processOut env clock accepted fuel 0 d = .ok ((rc, ms), d')) ∧
      Calls env d hs d' ∧ packetsOf hs = ms ∧ (∀ k ∈ hs, k.1.ofStep = true) ∧
      bearing ms ≤ d.c.uanswers.length + 9 * d.c.allPublished.length ∧ (rc = 0 ∨ rc = 2) ∧
      (rc = 0 → d'.c.uanswers = []) := by
  obtain ⟨M, hM⟩ := exists_until h.inv.cinv
  obtain ⟨N, rc, ms, hs, d', hN, n, p, o, b, r, u⟩ := processOut_ends hk (accepted := accepted) hc M _ _ _ 0 d h hM rfl rfl rfl
  exact ⟨N, rc, ms, hs, d', hN, n, p, o, Nat.le_trans b (load_live h.inv.rinv), r, u⟩

/-- C61: in any state, for any datagrams that do not make the parser leave the receive buffer,
`mdnsd_step` ends normally; it is a sequence of calls of the library, so everything proved about
those holds for it. -/
theorem C61_step_ends_partial {env : Env} (hk : env.KeepOnExpiry) {d : D Ptrs} (h : Reach env d) (io : StepIo)
    (hd : Inside io.datagrams fun _ => 0) (hc : ∀ k, (io.clock k).sec ≤ (io.clock (k + 1)).sec) :
    ∃ N out hs d', (∀ fuel, N ≤ fuel → mdnsdStep env io fuel d = .ok (out, d')) ∧ Calls env d hs d' ∧
      packetsOf hs = out.packets ∧ (∀ k ∈ hs, k.1.ofStep = true) ∧ (out.tv.isSome ↔ out.rc = 0 ∧ io.wait = true) ∧
      (out.rc = 0 → io.output = true → d'.c.uanswers = []) := by
  obtain ⟨rc1, hs1, d1, e1, n1, p1, o1, r1⟩ : ∃ rc h' d', stepIn env io d = .ok (rc, d') ∧
      Calls env d h' d' ∧ packetsOf h' = [] ∧ (∀ k ∈ h', k.1.ofStep = true) ∧ (rc = 0 ∨ rc = 1) := by
    unfold stepIn
    split
    · exact processIn_calls _ _ h hd
    · exact ⟨0, [], d, rfl, .nil, rfl, (by intro _ m; cases m), .inl rfl⟩
  have h1 := n1.reach h
  obtain ⟨N, rc2, ms, hs2, d2, e2, n2, p2, o2, u2⟩ : ∃ N rc ms h' d', (∀ fuel, N ≤ fuel →
      stepOut env io fuel rc1 d1 = .ok ((rc, ms), d')) ∧
      Calls env d1 h' d' ∧ packetsOf h' = ms ∧ (∀ k ∈ h', k.1.ofStep = true) ∧ (rc = 0 → io.output = true → d'.c.uanswers = []) := by
    unfold stepOut
    split
    · obtain ⟨N, rc, ms, hs, d', hN, n, p, o, _, _, u⟩ := C61_out_ends_partial hk h1 hc io.accepted
      exact ⟨N, rc, ms, hs, d', hN, n, p, o, fun e _ => u e⟩
    · rename_i hn
      refine ⟨0, rc1, [], [], d1, fun _ _ => rfl, .nil, rfl, (by intro _ m; cases m), fun e e' => absurd ⟨e, e'⟩ hn⟩
  have h2 := n2.reach h1
  obtain ⟨tv, hs3, d3, e3, n3, p3, o3, t3, u3⟩ : ∃ tv h' d', stepWait io rc2 d2 = .ok (tv, d') ∧ Calls env d2 h' d' ∧ packetsOf h' = [] ∧ (∀ k ∈ h', k.1.ofStep = true) ∧
      (tv.isSome ↔ rc2 = 0 ∧ io.wait = true) ∧ (d2.c.uanswers = [] → d'.c.uanswers = []) := by
    unfold stepWait
    split
    · rename_i hn
      obtain ⟨l, hr⟩ := h2.rep
      obtain ⟨a, d', _, e, hd, _⟩ := hr.step (.sleep io.sleepAt) trivial
      have e0 : (Mdns.sleep io.sleepAt >>= fun t => pure (OpOut.time t)) d2 = .ok (a, d') := e
      cases e1 : Mdns.sleep io.sleepAt d2 with
      | ok p =>
        obtain ⟨t, d1⟩ := p
        rw [M.bind_ok e1] at e0
        cases e0
        refine ⟨some t, _, _, M.bind_ok e1, .just (o := .sleep io.sleepAt) trivial e, rfl, ?_, by simpa using hn, ?_⟩
        · intro k m
          cases List.mem_singleton.mp m
          rfl
        · intro hu
          have hd := h2.did (o := .sleep io.sleepAt) trivial e
          generalize d'.c = c', d'.lists = l' at hd
          cases hd with
          | sleep n =>
            cases hq : c'.uanswers with
            | nil => rfl
            | cons u us =>
              have := n.slow.uans u (by rw [hq]; simp)
              rw [hu] at this
              cases this
      | ub => simp only [Bind.bind, e1] at e0; cases e0
      | hang => simp only [Bind.bind, e1] at e0; cases e0
    · rename_i hn
      exact ⟨none, [], d2, rfl, .nil, rfl, (by intro _ m; cases m), by simpa using hn, id⟩
  refine ⟨N, ⟨rc2, ms, tv⟩, hs1 ++ (hs2 ++ (hs3 ++ [(.stepEnd, .unit)])), { d3 with c := { d3.c with disco := false } }, ?_, ?_, ?_, ?_, t3, fun a b => u3 (u2 a b)⟩
  · intro fuel hf
    unfold mdnsdStep
    rw [M.bind_ok e1, M.bind_ok (e2 fuel hf)]
    dsimp only
    rw [M.bind_ok e3]
    rfl
  · exact n1.append (n2.append (n3.append (.just (o := .stepEnd) trivial rfl)))
  · unfold packetsOf at *
    rw [List.filterMap_append, List.filterMap_append, List.filterMap_append, p1, p2, p3]
    simp
  · intro k m
    simp only [List.mem_append, List.mem_singleton] at m
    rcases m with m | m | m | rfl
    · exact o1 k m
    · exact o2 k m
    · exact o3 k m
    · rfl

/-! ### C62: datagrams one by one -/

/-- A datagram that fits the buffer and is decoded from its own bytes. -/
structure Datagram.Sound (g : Datagram) : Prop where
  some : g.data ≠ []
  fits : g.data.length ≤ maxPacketLen
  self : SelfContained g.data

/-- What a datagram means, taken alone. -/
def Datagram.meaning (g : Datagram) : PRes Msg := messageParse ⟨g.data.length, fun i => g.data.getD i 0⟩ structCap

/-- Taking in datagrams one by one, each for what it means alone; what cannot be decoded is passed
over. -/
def takeIn {Q : Type} [QOps Q] (env : Env) : List Datagram → M Q Unit
  | [] => pure ()
  | g :: rest => match g.meaning with
    | .ok m => do
      let _ ← step env (.recv g.clock m g.src)
      takeIn env rest
    | _ => takeIn env rest

theorem Datagram.Sound.parse {g : Datagram} (h : g.Sound) (buf : Nat → UInt8) :
    messageParse ⟨recvSize, fun i => if i = maxPacketLen then 0 else received buf (g.data.take maxPacketLen) i⟩ structCap = g.meaning := by
  have ht : g.data.take maxPacketLen = g.data := List.take_of_length_le h.fits
  rw [ht]
  have hext : Ext ⟨g.data.length, fun i => g.data.getD i 0⟩
      ⟨recvSize, fun i => if i = maxPacketLen then 0 else received buf g.data i⟩ := by
    have hf := h.fits
    constructor
    · show g.data.length ≤ recvSize
      unfold maxPacketLen at hf
      unfold recvSize
      omega
    · intro i hi
      have hi : i < g.data.length := hi
      show g.data.getD i 0 = if i = maxPacketLen then 0 else received buf g.data i
      rw [if_neg (by omega)]
      unfold received
      rw [if_pos hi]
  rcases le_messageParse hext structCap with h1 | h1 | h1
  · exact absurd h1 h.self
  · exact absurd h1 (C04_parse_terminates _)
  · exact h1.symm

theorem Inside.sound : ∀ {gs : List Datagram} (buf : Nat → UInt8), (∀ g ∈ gs, g.Sound) → Inside gs buf
  | [], _, _ => trivial
  | g :: gs, buf, h => by
    refine ⟨?_, Inside.sound _ fun g' m => h g' (List.mem_cons_of_mem _ m)⟩
    rw [(h g (by simp)).parse buf]
    exact (h g (by simp)).self

theorem M.assoc {Q α β γ : Type} (x : M Q α) (f : α → M Q β) (g : β → M Q γ) (d : D Q) :
    ((x >>= f) >>= g) d = (x >>= fun a => f a >>= g) d := by
  cases e : x d with
  | ok p =>
    obtain ⟨a, d1⟩ := p
    rw [M.bind_ok e]
    cases e1 : f a d1 with
    | ok p => obtain ⟨b, d2⟩ := p; rw [M.bind_ok e1, M.bind_ok (by rw [M.bind_ok e]; exact e1)]
    | ub => rw [M.bind_ub e1, M.bind_ub (by rw [M.bind_ok e]; exact e1)]
    | hang => rw [M.bind_hang e1, M.bind_hang (by rw [M.bind_ok e]; exact e1)]
  | ub => rw [M.bind_ub e, M.bind_ub (M.bind_ub e)]
  | hang => rw [M.bind_hang e, M.bind_hang (M.bind_hang e)]

theorem M.congr {Q α β : Type} {x y : M Q α} {f g : α → M Q β} {d : D Q} (h : x d = y d) (hf : ∀ a d, f a d = g a d) :
    (x >>= f) d = (y >>= g) d := by
  cases e : y d with
  | ok p => obtain ⟨a, d1⟩ := p; rw [M.bind_ok e, M.bind_ok (h.trans e)]; exact hf a d1
  | ub => rw [M.bind_ub e, M.bind_ub (h.trans e)]
  | hang => rw [M.bind_hang e, M.bind_hang (h.trans e)]

theorem takeIn_append {Q : Type} [QOps Q] {env : Env} (gs' : List Datagram) : ∀ (gs : List Datagram) (d : D Q),
    takeIn env (gs ++ gs') d = (takeIn env gs >>= fun _ => takeIn env gs') d
  | [], _ => rfl
  | g :: gs, d => by
    rw [List.cons_append]
    have ih := takeIn_append (Q := Q) (env := env) gs' gs
    generalize takeIn (Q := Q) env gs' = t at ih ⊢
    unfold takeIn
    cases g.meaning with
    | ok m => exact (M.congr rfl fun _ d => ih d).trans (M.assoc _ _ _ _).symm
    | _ => exact ih d

/-- C62, for datagrams that are decoded from their own bytes: one step takes them in one by one, in
order, each for what it means alone, and what cannot be decoded has no effect.  In any state of
the daemon and for any contents of the receive buffer.  Missing: other datagrams may be completed
with bytes of earlier ones, see `C62_grouping_counterexample`. -/
theorem C62_one_by_one_partial {Q : Type} [QOps Q] {env : Env} {failed : Bool} : ∀ {gs : List Datagram}, (∀ g ∈ gs, g.Sound) →
    ∀ (buf : Nat → UInt8) (d : D Q),
      processIn env failed gs buf d = (takeIn env gs >>= fun _ => pure (if failed then 1 else 0)) d
  | [], _, _, _ => rfl
  | g :: gs, h, buf, d => by
    have hg := h g (by simp)
    have ih := fun buf (d : D Q) =>
      C62_one_by_one_partial (env := env) (failed := failed) (fun g' m => h g' (List.mem_cons_of_mem g m)) buf d
    unfold processIn takeIn
    rw [if_neg hg.some]
    have hp := hg.parse buf
    rw [hp]
    cases e : g.meaning with
    | ok m =>
      show (inMsg env g.clock m g.src >>= _) d = ((step env (.recv g.clock m g.src) >>= fun _ => takeIn env gs) >>= _) d
      rw [M.assoc]
      show _ = ((inMsg env g.clock m g.src >>= fun _ => pure OpOut.unit) >>= _) d
      rw [M.assoc]
      exact M.congr rfl fun _ d => ih _ d
    | fail => exact ih _ d
    | oob => exact absurd e hg.self
    | wub => exact absurd e (C05_parse_writes_inside _)
    | hang => exact absurd e (C04_parse_terminates _)

/-- C62: such datagrams may as well arrive in two steps. -/
theorem C62_grouping_partial {Q : Type} [QOps Q] {env : Env} {failed : Bool} {gs gs' : List Datagram} (h : ∀ g ∈ gs, g.Sound)
    (h' : ∀ g ∈ gs', g.Sound) (buf buf1 buf2 : Nat → UInt8) (d : D Q) :
    processIn env failed (gs ++ gs') buf d =
      (processIn env false gs buf1 >>= fun _ => processIn env failed gs' buf2) d := by
  rw [C62_one_by_one_partial (fun g m => (List.mem_append.mp m).elim (h g) (h' g))]
  rw [M.congr (takeIn_append gs' gs d) fun _ _ => rfl, M.assoc]
  rw [M.congr (g := fun _ => processIn env failed gs' buf2) (C62_one_by_one_partial h buf1 d) fun _ _ => rfl, M.assoc]
  exact M.congr rfl fun _ d => (C62_one_by_one_partial h' buf2 d).symm

/-- C62: what the message builder makes is such a datagram, and means the message. -/
theorem C62_built_datagrams (top : Bytes) (m : MSpec) (hm : m.Ok top) (clock : TV) (src : Addr) :
    (⟨clock, m.packet, src⟩ : Datagram).Sound ∧ (⟨clock, m.packet, src⟩ : Datagram).meaning = .ok m.seen := by
  have hP := hm.packet
  have e : (⟨clock, m.packet, src⟩ : Datagram).meaning = .ok m.seen := by
    refine C03_build_parse_partial top m hm _ ⟨Nat.le_refl _, ?_⟩
    intro i hi
    simp
  refine ⟨⟨?_, hP, ?_⟩, e⟩
  · intro h0
    have h0 : m.packet = [] := h0
    unfold MSpec.packet messagePacket at h0
    simp [headerBytes, putShort, flagBytes] at h0
  · show (⟨clock, m.packet, src⟩ : Datagram).meaning ≠ .oob
    rw [e]
    simp

/-- C61 for such datagrams. -/
theorem C61_step_sound_partial {env : Env} (hk : env.KeepOnExpiry) {d : D Ptrs} (h : Reach env d) (io : StepIo)
    (hd : ∀ g ∈ io.datagrams, g.Sound) (hc : ∀ k, (io.clock k).sec ≤ (io.clock (k + 1)).sec) :
    ∃ N out hs d', (∀ fuel, N ≤ fuel → mdnsdStep env io fuel d = .ok (out, d')) ∧ Calls env d hs d' ∧
      packetsOf hs = out.packets ∧ (∀ k ∈ hs, k.1.ofStep = true) ∧ (out.tv.isSome ↔ out.rc = 0 ∧ io.wait = true) ∧
      (out.rc = 0 → io.output = true → d'.c.uanswers = []) :=
  C61_step_ends_partial hk h io (.sound _ hd) hc

/-! ### Witnesses -/

namespace Sample

/-- A question for `a.`, as bytes. -/
def query : Bytes := [0,0,0,0,0,1,0,0,0,0,0,0, 1,0x61,0, 0,1,0,1]

theorem query_sound (clock : TV) (src : Addr) : (⟨clock, query, src⟩ : Datagram).Sound :=
  ⟨show query ≠ [] by decide, show query.length ≤ maxPacketLen by decide, show SelfContained query by unfold SelfContained; decide +kernel⟩

/-- A second after the record was announced, a host asks for it twice: once for an answer of its
own, once for everyone. -/
def stepIo : StepIo :=
  { datagrams := [⟨at_ 110, query, lone⟩, ⟨at_ 110, query, other⟩], clock := fun _ => at_ 110, sleepAt := at_ 110 }

/-- C61, C62: the hypotheses hold, and the step sends one packet to the host that asked for its own. -/
example : Reach quiet (trace quiet announced fresh).2 ∧ (∀ g ∈ stepIo.datagrams, g.Sound) ∧
    (∀ k, (stepIo.clock k).sec ≤ (stepIo.clock (k + 1)).sec) ∧
    (match mdnsdStep quiet stepIo 5 (trace quiet announced fresh).2 with
      | .ok (out, _) => out.rc == 0 && out.packets.map (·.2) == [lone] && out.tv.isSome
      | _ => false) = true := by
  refine ⟨reach_of (by decide +kernel), ?_, fun _ => Nat.le_refl _, by decide +kernel⟩
  intro g hg
  simp only [stepIo, List.mem_cons, List.not_mem_nil, or_false] at hg
  rcases hg with rfl | rfl
  · exact query_sound _ _
  · exact query_sound _ _

end Sample

open Sample in
/-- **C62 is false in general**: a response with a question and a query that ends after its header.
Received in one step the daemon answers the question; in two steps it does not. -/
theorem C62_grouping_counterexample :
    ∃ (d : D Ptrs) (g g' : Datagram), Reach quiet d ∧
      (match processIn quiet false [g, g'] (fun _ => 0) d with
        | .ok (_, d') => some (d'.q.walk .pause)
        | _ => none) = some [0] ∧
      (match (processIn quiet false [g] (fun _ => 0) >>= fun _ => processIn quiet false [g'] fun _ => 0) d with
        | .ok (_, d') => some (d'.q.walk .pause)
        | _ => none) = some [] :=
  ⟨(trace quiet announced fresh).2, ⟨at_ 110, [0,0,0x84,0,0,1,0,0,0,0,0,0, 1,0x61,0, 0,1,0,1], other⟩,
    ⟨at_ 110, [0,0,0,0,0,1,0,0,0,0,0,0], other⟩, reach_of (by decide +kernel), by decide +kernel, by decide +kernel⟩

end Mdns
