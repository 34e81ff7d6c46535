import Verif.Lemmas.Asking
import Verif.Lemmas.Size

/-!
# What a packet with questions does to the queries
-/

namespace Mdns

/-- What happens to a query, with its time and count before and after, and whether it is asked. -/
inductive Turn (c : Core) (host : Bytes) (type : Nat) : Nat → Nat → Nat → Nat → Bool → Prop
  | idle {n k : Nat} (h : n = 0 ∨ c.now.sec < n) : Turn c host type n k n k false
  | ask {n k : Nat} (h : ¬ (n = 0 ∨ c.now.sec < n)) (h3 : k ≠ 3) :
      Turn c host type n k (c.now.sec + (k + 1)) (k + 1) true
  /-- after three times: according to the cache -/
  | again {n n' : Nat} (h : ¬ (n = 0 ∨ c.now.sec < n))
      (h' : n' = 0 ∨ ∃ a ∈ c.rrs (bucket host lprime), a.is host type = true ∧ c.now.sec < a.ttl ∧ n' = sub7 a.ttl) :
      Turn c host type n 3 n' 0 false

theorem foldl_pick {α : Type} (f : α → Nat) : ∀ (l : List α) (b : Nat),
    l.foldl (fun nt e => if nt = 0 ∨ f e < nt then f e else nt) b = b ∨
      ∃ e ∈ l, l.foldl (fun nt e => if nt = 0 ∨ f e < nt then f e else nt) b = f e
  | [], b => .inl rfl
  | e :: l, b => by
    rw [List.foldl_cons]
    rcases foldl_pick f l (if b = 0 ∨ f e < b then f e else b) with h | ⟨e', m, h⟩
    · rw [h]
      split
      · exact .inr ⟨e, by simp, rfl⟩
      · exact .inl rfl
    · exact .inr ⟨e', by simp [m], h⟩

theorem dueTime_pick (c : Core) (x : Query) : c.dueTime x = 0 ∨
    ∃ a ∈ c.rrs (bucket x.name lprime), a.is x.name x.type = true ∧ c.dueTime x = sub7 a.ttl := by
  unfold Core.dueTime
  rcases foldl_pick (fun e : Cached => sub7 e.rr.ttl) ((c.chain x.name).filter fun e => e.rr.is x.name x.type) 0 with h | ⟨e, m, h⟩
  · exact .inl h
  · obtain ⟨m, hi⟩ := List.mem_filter.mp m
    exact .inr ⟨e.rr, List.mem_map_of_mem m, hi, h⟩

/-- What the sweep of a chain leaves. -/
theorem CInv.cExpire_rrs {c c' : Core} (h : CInv c) {env : Env} {i : Nat} (e : c.cExpire env i = .ok c') :
    (∀ j, j ≠ i → c'.rrs j = c.rrs j) ∧ c'.rrs i = (c.rrs i).filter c.live := by
  obtain ⟨c1, evs, e1, _, h1, h2, _⟩ := h.cExpire env i
  rw [e] at e1
  cases e1
  exact ⟨h1, h2⟩

theorem CInv.cExpire_sub {c c' : Core} (h : CInv c) {env : Env} {i : Nat} (e : c.cExpire env i = .ok c') :
    ∀ j, ∀ a ∈ c'.rrs j, a ∈ c.rrs j := by
  obtain ⟨h1, h2⟩ := h.cExpire_rrs e
  intro j a m
  by_cases ej : j = i
  · subst ej
    rw [h2] at m
    exact (List.mem_filter.mp m).1
  · rw [h1 j ej] at m
    exact m

theorem Upd.sub {env : Env} {suf : List Nat} {s t : QSt} (n : Upd env suf s t) : ∀ j, ∀ a ∈ t.c.rrs j, a ∈ s.c.rrs j := by
  induction n with
  | done => exact fun _ _ m => m
  | idle _ _ _ _ ih => exact ih
  | again h _ _ _ he _ _ _ _ ih => exact fun j a m => h.cExpire_sub he j a (ih j a m)
  | ask _ _ _ _ _ ih => exact ih

/-- A query that is not in the list. -/
theorem Upd.other {env : Env} {suf : List Nat} {s t : QSt} (n : Upd env suf s t) {q : Nat} {x : Query} (hq : q ∉ suf)
    (hx : s.c.qs q = some x) : ∃ cb, t.c.qs q = some { x with cb := cb } := by
  induction n generalizing x with
  | done => exact ⟨_, hx⟩
  | idle _ _ _ _ ih => exact ih (fun m => hq (by simp [m])) hx
  | @again p _ s _ y c1 _ cb h hy _ _ he hc hn hx1 _ ih =>
    have hp : q ≠ p := fun e => hq (by simp [e])
    rcases hc.kept q x hx with ⟨cb', h1⟩ | ⟨_, m⟩
    · exact ih (x := { x with cb := cb' }) (fun m => hq (by simp [m])) (by
        show upd c1.qs p _ q = _
        rw [upd_other _ _ _ _ hp, h1])
    · exact absurd m (hn _ _)
  | @ask p _ s _ y h hy _ _ _ ih =>
    have hp : q ≠ p := fun e => hq (by simp [e])
    exact ih (fun m => hq (by simp [m])) (by
      show upd s.c.qs p _ q = _
      rw [upd_other _ _ _ _ hp, hx])

theorem Upd.le {env : Env} {suf : List Nat} {s t : QSt} (n : Upd env suf s t) : s.ret ≤ t.ret := by
  induction n with
  | done => exact Nat.le_refl _
  | idle _ _ _ _ ih => exact ih
  | again _ _ _ _ _ _ _ _ _ ih => exact ih
  | ask _ _ _ _ _ ih => exact Nat.le_trans (Nat.le_succ _) ih

theorem Turn.mono {c c' : Core} {host : Bytes} {type n k n' k' : Nat} {b : Bool} (h : Turn c' host type n k n' k' b)
    (hn : c'.now = c.now) (hs : ∀ j, ∀ a ∈ c'.rrs j, a ∈ c.rrs j) : Turn c host type n k n' k' b := by
  cases h with
  | idle h => exact .idle (hn ▸ h)
  | ask h h3 => rw [hn]; exact .ask (hn ▸ h) h3
  | again h h' =>
    refine .again (hn ▸ h) (h'.imp_right ?_)
    rintro ⟨a, m, ha, hl, e⟩
    exact ⟨a, hs _ a m, ha, hn ▸ hl, e⟩

/-- A query in the list. -/
theorem Upd.mine {env : Env} {suf : List Nat} {s t : QSt} (n : Upd env suf s t) (hd : suf.Nodup) {q : Nat} {x : Query}
    (hq : q ∈ suf) (hx : s.c.qs q = some x) : ∃ y b, t.c.qs q = some y ∧ y.name = x.name ∧ y.type = x.type ∧
      Turn s.c x.name x.type x.nexttry x.tries y.nexttry y.tries b ∧ (b = true → s.ret < t.ret) := by
  induction n generalizing x with
  | done => cases hq
  | @idle p _ s _ y _ hy hi n ih =>
    rcases List.mem_cons.mp hq with e | m
    · subst e
      rw [hx] at hy
      cases hy
      obtain ⟨cb, h⟩ := n.other (List.nodup_cons.mp hd).1 hx
      exact ⟨_, false, h, rfl, rfl, .idle hi, by simp⟩
    · exact ih (List.nodup_cons.mp hd).2 m hx
  | @again p _ s _ y c1 _ cb h hy hi h3 he hc hn hx1 n ih =>
    rcases List.mem_cons.mp hq with e | m
    · subst e
      rw [hx] at hy
      cases hy
      obtain ⟨cb', h1⟩ := n.other (x := { y with cb := cb, nexttry := c1.dueTime { y with cb := cb }, tries := 0 })
        (List.nodup_cons.mp hd).1 (by
          show upd c1.qs q _ q = _
          rw [upd_same])
      refine ⟨_, false, h1, rfl, rfl, ?_, by simp⟩
      rw [h3]
      refine .again hi ?_
      rcases dueTime_pick c1 { y with cb := cb } with h0 | ⟨a, ma, ha, e⟩
      · exact .inl h0
      · right
        have ma : a ∈ c1.rrs (bucket y.name lprime) := ma
        rw [(h.cExpire_rrs he).2] at ma
        obtain ⟨ma, hl⟩ := List.mem_filter.mp ma
        refine ⟨a, ma, ha, ?_, e⟩
        simpa [Core.live] using hl
    · have hp : q ≠ p := fun e => (List.nodup_cons.mp hd).1 (e ▸ m)
      rcases hc.kept q x hx with ⟨cb', h1⟩ | ⟨_, m⟩
      · obtain ⟨z, b, hz, e1, e2, tn, hb⟩ := ih (List.nodup_cons.mp hd).2 m (x := { x with cb := cb' }) (by
          show upd c1.qs p _ q = _
          rw [upd_other _ _ _ _ hp, h1])
        exact ⟨z, b, hz, e1, e2, tn.mono (c := s.c) (rest_now hc.rest) (fun j a m => h.cExpire_sub he j a m), hb⟩
      · exact absurd m (hn _ _)
  | @ask p _ s _ y h hy hi h3 n ih =>
    rcases List.mem_cons.mp hq with e | m
    · subst e
      rw [hx] at hy
      cases hy
      obtain ⟨cb, h1⟩ := n.other (x := { y with nexttry := s.c.now.sec + (y.tries + 1), tries := y.tries + 1 })
        (List.nodup_cons.mp hd).1 (by
          show upd s.c.qs q _ q = _
          rw [upd_same])
      exact ⟨_, true, h1, rfl, rfl, .ask hi h3, fun _ => Nat.lt_of_lt_of_le (Nat.lt_succ_self _) n.le⟩
    · have hp : q ≠ p := fun e => (List.nodup_cons.mp hd).1 (e ▸ m)
      obtain ⟨z, b, hz, e1, e2, tn, hb⟩ := ih (List.nodup_cons.mp hd).2 m (x := x) (by
        show upd s.c.qs p _ q = _
        rw [upd_other _ _ _ _ hp, hx])
      exact ⟨z, b, hz, e1, e2, tn.mono rfl fun _ _ m => m, fun e => Nat.lt_trans (Nat.lt_succ_self _) (hb e)⟩

/-! ### The questions of a packet -/

theorem knownLoop_questions (c : Core) (x : Query) : ∀ (es : List Cached) (m : Out),
    questions (knownLoop c x es m).ops = questions m.ops
  | [], m => rfl
  | e :: es, m => by
    unfold knownLoop
    split
    · split
      · rw [knownLoop_questions c x es]
        unfold Out.add
        rw [questions_append]
        simp only [questions]
        rw [questions_data (aCopy_data _), List.append_nil]
      · rfl
    · exact knownLoop_questions c x es m

theorem Upd.questions {env : Env} {suf : List Nat} {s t : QSt} (n : Upd env suf s t) :
    questions t.m.ops = questions s.m.ops := by
  induction n with
  | done => rfl
  | idle _ _ _ _ ih => exact ih
  | again _ _ _ _ _ _ _ _ _ ih => exact ih
  | ask _ _ _ _ _ ih => exact ih.trans (knownLoop_questions ..)

theorem questions_due (c : Core) : ∀ (xs : List Query),
    questions (xs.map c.questionOf) = xs.map fun x => (x.name, x.type, c.cls)
  | [] => rfl
  | x :: xs => by
    show (x.name, x.type, c.cls) :: questions (xs.map c.questionOf) = _
    rw [questions_due c xs]
    rfl

/-- The questions of a packet are those of the queries that are due. -/
theorem QuestOpt.questions {env : Env} {c c' : Core} {m : Out} {ret : Nat} (n : QuestOpt env blankQ c ret m c') :
    questions m.ops = [] ∧ c' = c ∧ ret = 0 ∧ ¬ (c.checkqlist ≠ 0 ∧ c.now.sec ≥ c.checkqlist) ∨
      questions m.ops = (c.dueQs c.qlist).map fun x => (x.name, x.type, c.cls) := by
  cases n with
  | no _ h => exact .inl ⟨rfl, rfl, rfl, h⟩
  | yes _ _ n =>
    right
    rw [n.questions]
    show Mdns.questions ([] ++ _) = _
    rw [List.nil_append, questions_due]

theorem mem_dueQs {c : Core} {l : List Nat} {x : Query} : x ∈ c.dueQs l ↔ ∃ q ∈ l, c.qs q = some x ∧ c.due x := by
  unfold Core.dueQs
  rw [List.mem_filterMap]
  constructor
  · rintro ⟨q, m, e⟩
    cases hq : c.qs q with
    | none => rw [hq] at e; cases e
    | some y =>
      rw [hq] at e
      simp only [Option.bind_some] at e
      split at e
      · cases e
        exact ⟨q, m, hq, by assumption⟩
      · cases e
  · rintro ⟨q, m, hq, hd⟩
    exact ⟨q, m, by rw [hq]; simp only [Option.bind_some]; rw [if_pos hd]⟩

/-! ### The known answers of a packet -/

/-- A known answer as it is put in a packet. -/
def Core.knownEntry (c : Core) (name : Bytes) (type : Nat) (a : Answer) : PEntry :=
  ⟨.an, name, type, c.cls, a.ttl - c.now.sec, aCopy a⟩

theorem knownLoop_len (c : Core) (x : Query) : ∀ (es : List Cached) (m : Out), m.len ≤ (knownLoop c x es m).len
  | [], m => Nat.le_refl _
  | e :: es, m => by
    unfold knownLoop
    split
    · split
      · exact Nat.le_trans (Out.add_len _ _).1 (knownLoop_len c x es _)
      · exact Nat.le_refl _
    · exact knownLoop_len c x es m

theorem headed_rr (s : Section) (n : Bytes) (t cls ttl : Nat) (l : List MOp) : Headed (.b (.rr s n t cls ttl) :: l) := by
  intro o m
  cases m
  rfl

/-- The known answers of one question: the first ones, up to one that has no more than eight
seconds left or does not fit. -/
theorem knownLoop_entries (c : Core) (x : Query) : ∀ (es : List Cached) (m : Out), ∃ pre rest,
    (es.map (·.rr)).filter (fun a => a.is x.name x.type) = pre ++ rest ∧
    entries (knownLoop c x es m).ops = entries m.ops ++ pre.map (c.knownEntry x.name x.type) ∧
    (∀ a ∈ pre, c.now.sec + 8 < a.ttl) ∧
    (rest = [] ∨ ∃ a ∈ rest, a.ttl ≤ c.now.sec + 8 ∨ c.frame ≤ (knownLoop c x es m).len + rrLen a)
  | [], m => ⟨[], [], rfl, by simp [knownLoop], by simp, .inl rfl⟩
  | e :: es, m => by
    unfold knownLoop
    by_cases h : e.rr.is x.name x.type = true
    · rw [if_pos h]
      by_cases hf : e.rr.ttl > c.now.sec + 8 ∧ m.len + rrLen e.rr < c.frame
      · rw [if_pos hf]
        obtain ⟨pre, rest, e1, e2, e3, e4⟩ := knownLoop_entries c x es
          (m.add (.b (.rr .an x.name x.type c.cls (e.rr.ttl - c.now.sec)) :: aCopy e.rr))
        refine ⟨e.rr :: pre, rest, ?_, ?_, ?_, e4⟩
        · rw [List.map_cons, List.filter_cons, if_pos h, e1]
          rfl
        · rw [e2]
          unfold Out.add
          simp only
          rw [entries_append _ (headed_rr _ _ _ _ _ _), entries_rr, List.map_cons, List.append_assoc]
          rfl
        · intro a ma
          rcases List.mem_cons.mp ma with rfl | ma
          · exact hf.1
          · exact e3 a ma
      · rw [if_neg hf]
        refine ⟨[], e.rr :: (es.map (·.rr)).filter (fun a => a.is x.name x.type), ?_, by simp, by simp, .inr ⟨e.rr, by simp, ?_⟩⟩
        · rw [List.map_cons, List.filter_cons, if_pos h]
          rfl
        · omega
    · rw [if_neg h]
      obtain ⟨pre, rest, e1, e2⟩ := knownLoop_entries c x es m
      exact ⟨pre, rest, by rw [List.map_cons, List.filter_cons, if_neg h, e1], e2⟩

theorem Upd.len {env : Env} {suf : List Nat} {s t : QSt} (n : Upd env suf s t) : s.m.len ≤ t.m.len := by
  induction n with
  | done => exact Nat.le_refl _
  | idle _ _ _ _ ih => exact ih
  | again _ _ _ _ _ _ _ _ _ ih => exact ih
  | ask _ _ _ _ _ ih => exact Nat.le_trans (knownLoop_len ..) ih

theorem Upd.mem {env : Env} {suf : List Nat} {s t : QSt} (n : Upd env suf s t) : ∀ p ∈ entries s.m.ops, p ∈ entries t.m.ops := by
  induction n with
  | done => exact fun _ m => m
  | idle _ _ _ _ ih => exact ih
  | again _ _ _ _ _ _ _ _ _ ih => exact ih
  | @ask _ _ s _ x _ _ _ _ _ ih =>
    intro p m
    refine ih p ?_
    obtain ⟨pre, rest, _, e, _⟩ := knownLoop_entries (s.c.askedQ _ x) x (s.c.chain x.name) s.m
    rw [e]
    simp [m]

/-- The query is asked for. -/
def Core.asksNow (c : Core) (x : Query) : Prop := ¬ (x.nexttry = 0 ∨ x.nexttry > c.now.sec) ∧ x.tries ≠ 3

/-- Nothing but known answers of the questions is in the packet. -/
theorem Upd.sound {env : Env} {suf : List Nat} {s t : QSt} (n : Upd env suf s t) (hd : suf.Nodup)
    (hl : ∀ q ∈ suf, ∃ x, s.c.qs q = some x) : ∀ p ∈ entries t.m.ops,
    p ∈ entries s.m.ops ∨ ∃ q ∈ suf, ∃ x, s.c.qs q = some x ∧ s.c.asksNow x ∧
      ∃ a ∈ s.c.rrs (bucket x.name lprime), a.is x.name x.type = true ∧ s.c.now.sec + 8 < a.ttl ∧
        p = s.c.knownEntry x.name x.type a := by
  induction n with
  | done => exact fun p m => .inl m
  | @idle q _ s _ x _ hx hi _ ih =>
    intro p m
    rcases ih (List.nodup_cons.mp hd).2 (fun q m => hl q (by simp [m])) p m with h | ⟨q, mq, h⟩
    · exact .inl h
    · exact .inr ⟨q, by simp [mq], h⟩
  | @again p0 _ s _ y c1 _ cb h hy hi h3 he hc hn hx1 n ih =>
    intro p m
    have kept : ∀ q, q ≠ p0 → ∀ x, s.c.qs q = some x → ∃ cb, c1.qs q = some { x with cb := cb } := by
      intro q _ x hx
      rcases hc.kept q x hx with h | ⟨_, m⟩
      · exact h
      · exact absurd m (hn _ _)
    have hnow : c1.now = s.c.now := rest_now hc.rest
    rcases ih (List.nodup_cons.mp hd).2 (fun q m => by
      have hp : q ≠ p0 := fun e => (List.nodup_cons.mp hd).1 (e ▸ m)
      obtain ⟨x, hx⟩ := hl q (by simp [m])
      obtain ⟨cb, h1⟩ := kept q hp x hx
      exact ⟨_, by
        show upd c1.qs p0 _ q = _
        rw [upd_other _ _ _ _ hp, h1]⟩) p m with h1 | ⟨q, mq, x, hx, ha, a, ma, hi, ht, e⟩
    · exact .inl h1
    · right
      have hp : q ≠ p0 := fun e => (List.nodup_cons.mp hd).1 (e ▸ mq)
      have hx : upd c1.qs p0 _ q = some x := hx
      rw [upd_other _ _ _ _ hp] at hx
      obtain ⟨x0, hx0⟩ := hl q (by simp [mq])
      obtain ⟨cb', h1⟩ := kept q hp x0 hx0
      rw [hx] at h1
      cases h1
      refine ⟨q, by simp [mq], x0, hx0, ?_, a, h.cExpire_sub he _ a ma, hi, ?_, ?_⟩
      · have ha : Core.asksNow c1 _ := ha
        unfold Core.asksNow at ha ⊢
        rw [hnow] at ha
        exact ha
      · have ht : c1.now.sec + 8 < a.ttl := ht
        rw [hnow] at ht
        exact ht
      · rw [e]
        show (⟨_, _, _, c1.cls, a.ttl - c1.now.sec, _⟩ : PEntry) = _
        have hcls : c1.cls = s.c.cls := (congrArg Core.cls hc.rest : c1.rest.cls = s.c.rest.cls)
        rw [hnow, hcls]
        rfl
  | @ask p0 _ s _ y h hy hi h3 n ih =>
    intro p m
    rcases ih (List.nodup_cons.mp hd).2 (fun q m => by
      have hp : q ≠ p0 := fun e => (List.nodup_cons.mp hd).1 (e ▸ m)
      obtain ⟨x, hx⟩ := hl q (by simp [m])
      exact ⟨x, by
        show upd s.c.qs p0 _ q = _
        rw [upd_other _ _ _ _ hp, hx]⟩) p m with h1 | ⟨q, mq, x, hx, h1⟩
    · obtain ⟨pre, rest, e1, e2, e3, _⟩ := knownLoop_entries (s.c.askedQ p0 y) y (s.c.chain y.name) s.m
      rw [e2] at h1
      rcases List.mem_append.mp h1 with h1 | h1
      · exact .inl h1
      · obtain ⟨a, ma, e⟩ := List.mem_map.mp h1
        have mf : a ∈ ((s.c.chain y.name).map (·.rr)).filter (fun a => a.is y.name y.type) := by
          rw [e1]
          simp [ma]
        obtain ⟨mf, hia⟩ := List.mem_filter.mp mf
        exact .inr ⟨p0, by simp, y, hy, ⟨hi, h3⟩, a, mf, hia, e3 a ma, e.symm⟩
    · have hp : q ≠ p0 := fun e => (List.nodup_cons.mp hd).1 (e ▸ mq)
      have hx : upd s.c.qs p0 _ q = some x := hx
      rw [upd_other _ _ _ _ hp] at hx
      exact .inr ⟨q, by simp [mq], x, hx, h1⟩

/-- Every known answer of a question is in the packet, unless one of them has no more than eight
seconds left or does not fit. -/
theorem Upd.complete {env : Env} {suf : List Nat} {s t : QSt} (n : Upd env suf s t) (hd : suf.Nodup) {q : Nat} {x : Query}
    (hq : q ∈ suf) (hx : s.c.qs q = some x) (ha : s.c.asksNow x) {a : Answer} (ma : a ∈ s.c.rrs (bucket x.name lprime))
    (hi : a.is x.name x.type = true) (hl : s.c.now.sec < a.ttl) :
    s.c.knownEntry x.name x.type a ∈ entries t.m.ops ∨
      ∃ b ∈ s.c.rrs (bucket x.name lprime), b.is x.name x.type = true ∧
        (b.ttl ≤ s.c.now.sec + 8 ∨ s.c.frame ≤ t.m.len + rrLen b) := by
  induction n generalizing x with
  | done => cases hq
  | @idle p0 _ s _ y _ hy hi' n ih =>
    rcases List.mem_cons.mp hq with e | mq
    · subst e
      rw [hx] at hy
      cases hy
      exact absurd hi' ha.1
    · exact ih (List.nodup_cons.mp hd).2 mq hx ha ma hi hl
  | @again p0 _ s _ y c1 _ cb h hy hi' h3 he hc hn hx1 n ih =>
    rcases List.mem_cons.mp hq with e | mq
    · subst e
      rw [hx] at hy
      cases hy
      exact absurd h3 ha.2
    · have hp : q ≠ p0 := fun e => (List.nodup_cons.mp hd).1 (e ▸ mq)
      have hnow : c1.now = s.c.now := rest_now hc.rest
      have hcls : c1.cls = s.c.cls := (congrArg Core.cls hc.rest : c1.rest.cls = s.c.rest.cls)
      have hfr : c1.frame = s.c.frame := (congrArg Core.frame hc.rest : c1.rest.frame = s.c.rest.frame)
      rcases hc.kept q x hx with ⟨cb', h1⟩ | ⟨_, m⟩
      · have hm : a ∈ c1.rrs (bucket x.name lprime) := by
          obtain ⟨r1, r2⟩ := h.cExpire_rrs he
          by_cases e : bucket x.name lprime = bucket y.name lprime
          · rw [e] at ma ⊢
            rw [r2, List.mem_filter]
            exact ⟨ma, by simpa [Core.live] using hl⟩
          · rw [r1 _ e]
            exact ma
        rcases ih (List.nodup_cons.mp hd).2 mq (x := { x with cb := cb' }) (by
            show upd c1.qs p0 _ q = _
            rw [upd_other _ _ _ _ hp, h1]) (by
            show Core.asksNow c1 _
            unfold Core.asksNow at ha ⊢
            rw [hnow]
            exact ha) hm hi (by show c1.now.sec < _; rw [hnow]; exact hl) with h1 | ⟨b, mb, hb, h1⟩
        · left
          have h1 : (⟨_, _, _, c1.cls, a.ttl - c1.now.sec, _⟩ : PEntry) ∈ _ := h1
          rw [hnow, hcls] at h1
          exact h1
        · refine .inr ⟨b, h.cExpire_sub he _ b mb, hb, ?_⟩
          have h1 : b.ttl ≤ c1.now.sec + 8 ∨ c1.frame ≤ _ := h1
          rw [hnow, hfr] at h1
          exact h1
      · exact absurd m (hn _ _)
  | @ask p0 _ s _ y h hy hi' h3 n ih =>
    rcases List.mem_cons.mp hq with e | mq
    · subst e
      rw [hx] at hy
      cases hy
      obtain ⟨pre, rest, e1, e2, e3, e4⟩ := knownLoop_entries (s.c.askedQ q y) y (s.c.chain y.name) s.m
      have mf : a ∈ ((s.c.chain y.name).map (·.rr)).filter (fun a => a.is y.name y.type) := List.mem_filter.mpr ⟨ma, hi⟩
      rw [e1] at mf
      rcases List.mem_append.mp mf with mp | mr
      · left
        refine n.mem _ ?_
        show _ ∈ entries (knownLoop _ _ _ _).ops
        rw [e2, List.mem_append]
        exact .inr (List.mem_map_of_mem (f := s.c.knownEntry y.name y.type) mp)
      · right
        rcases e4 with e4 | ⟨b, mb, h4⟩
        · rw [e4] at mr
          cases mr
        · have mf : b ∈ ((s.c.chain y.name).map (·.rr)).filter (fun a => a.is y.name y.type) := by
            rw [e1]
            simp [mb]
          obtain ⟨mf, hib⟩ := List.mem_filter.mp mf
          refine ⟨b, mf, hib, h4.imp_right fun h4 => ?_⟩
          have := n.len
          simp only at this
          have h4 : s.c.frame ≤ _ := h4
          omega
    · have hp : q ≠ p0 := fun e => (List.nodup_cons.mp hd).1 (e ▸ mq)
      exact ih (List.nodup_cons.mp hd).2 mq (by
        show upd s.c.qs p0 _ q = _
        rw [upd_other _ _ _ _ hp, hx]) ha ma hi hl

theorem entries_due (c : Core) : ∀ (xs : List Query), entries (xs.map c.questionOf) = []
  | [] => rfl
  | _ :: xs => entries_due c xs

/-! ### The time at which questions are next looked at -/

/-- No question waits for longer than the time at which they are looked at. -/
def Timely (T : Nat) (c : Core) : Prop :=
  ∀ q x, c.qs q = some x → 0 < x.nexttry → c.checkqlist ≠ 0 ∧ c.checkqlist ≤ max T x.nexttry

theorem Timely.mono {T T' : Nat} {c : Core} (h : Timely T c) (hT : T ≤ T') : Timely T' c := fun q x hx hn => by
  obtain ⟨h1, h2⟩ := h q x hx hn
  exact ⟨h1, by omega⟩

theorem Tends.timely {T : Nat} {c c' : Core} {evs : List Event} (h : Tends c c' evs) (ht : Timely T c)
    (hT : c.now.sec ≤ T) (h0 : 0 < c.now.sec) : Timely T c' := by
  intro q x hx hn
  rcases h.new q x hx with ⟨cb, hy⟩ | ⟨_, _, _, _, e⟩
  · rcases h.chk with e | e
    · rw [e]
      exact ht q { x with cb := cb } hy hn
    · rw [e]
      exact ⟨by omega, by omega⟩
  · rw [e]
    exact ⟨by omega, by omega⟩

/-- The invariant of the second loop: what is not asked yet, or `best` is early enough. -/
def Best (suf : List Nat) (s : QSt) : Prop :=
  ∀ q x, s.c.qs q = some x → 0 < x.nexttry →
    (q ∈ suf ∧ x.nexttry ≤ s.c.now.sec ∧ x.tries ≠ 3) ∨ (s.best ≠ 0 ∧ s.best ≤ max s.c.now.sec x.nexttry)

theorem Upd.best {env : Env} {suf : List Nat} {s t : QSt} (n : Upd env suf s t) (h0 : 0 < s.c.now.sec)
    (hb : Best suf s) : Best [] t := by
  induction n with
  | done => exact hb
  | @idle p _ s _ y _ hy hi n ih =>
    refine ih h0 fun q x hx hn => ?_
    rcases hb q x hx hn with ⟨m, h1, h2⟩ | h
    · rcases List.mem_cons.mp m with e | m
      · subst e
        rw [hx] at hy
        cases hy
        omega
      · exact .inl ⟨m, h1, h2⟩
    · exact .inr h
  | @again p _ s _ y c1 _ cb h hy hi h3 he hc hn hx1 n ih =>
    have hbest : s.best ≠ 0 ∧ s.best ≤ s.c.now.sec := by
      rcases hb p y hy (by omega) with ⟨_, _, h⟩ | h
      · exact absurd h3 h
      · exact ⟨h.1, by omega⟩
    have hnow : c1.now = s.c.now := rest_now hc.rest
    refine ih (by show 0 < c1.now.sec; rw [hnow]; exact h0) fun q x _ _ => .inr ⟨hbest.1, ?_⟩
    show s.best ≤ max c1.now.sec _
    rw [hnow]
    omega
  | @ask p _ s _ y h hy hi h3 n ih =>
    refine ih h0 fun q x hx hn => ?_
    have hx : upd s.c.qs p (some { y with nexttry := s.c.now.sec + (y.tries + 1), tries := y.tries + 1 }) q = some x := hx
    show _ ∨ ((if s.best = 0 ∨ s.c.now.sec + (y.tries + 1) < s.best then s.c.now.sec + (y.tries + 1) else s.best) ≠ 0 ∧
      (if s.best = 0 ∨ s.c.now.sec + (y.tries + 1) < s.best then s.c.now.sec + (y.tries + 1) else s.best) ≤ max s.c.now.sec _)
    by_cases e : q = p
    · subst e
      rw [upd_same] at hx
      cases hx
      right
      simp only
      split <;> omega
    · rw [upd_other _ _ _ _ e] at hx
      rcases hb q x hx hn with ⟨m, h1, h2⟩ | h
      · rcases List.mem_cons.mp m with e' | m
        · exact absurd e' e
        · exact .inl ⟨m, h1, h2⟩
      · right
        split <;> omega

theorem nextBest_fold (c : Core) : ∀ (xs : List Query) (b : Nat),
    (b ≠ 0 → xs.foldl c.nextBest b ≠ 0 ∧ xs.foldl c.nextBest b ≤ b) ∧
      ∀ x ∈ xs, 0 < x.nexttry → ¬ c.due x → xs.foldl c.nextBest b ≠ 0 ∧ xs.foldl c.nextBest b ≤ x.nexttry
  | [], b => ⟨fun h => ⟨h, Nat.le_refl _⟩, fun _ m => by cases m⟩
  | y :: xs, b => by
    obtain ⟨h1, h2⟩ := nextBest_fold c xs (c.nextBest b y)
    rw [List.foldl_cons]
    constructor
    · intro hb
      have : c.nextBest b y ≠ 0 ∧ c.nextBest b y ≤ b := by
        unfold Core.nextBest
        split
        · exact ⟨hb, Nat.le_refl _⟩
        · split <;> omega
      have := h1 this.1
      omega
    · intro x m hn hd
      rcases List.mem_cons.mp m with rfl | m
      · have : c.nextBest b x ≠ 0 ∧ c.nextBest b x ≤ x.nexttry := by
          unfold Core.nextBest
          rw [if_neg hd]
          split <;> omega
        have := h1 this.1
        omega
      · exact h2 x m hn hd

theorem QuestOpt.timely {env : Env} {c c' : Core} {m m' : Out} {ret T : Nat} (n : QuestOpt env m c ret m' c')
    (h : CInv c) (ht : Timely T c) (hT : c.now.sec ≤ T) (h0 : 0 < c.now.sec) : Timely T c' := by
  cases n with
  | no => exact ht
  | yes _ _ n =>
    have hb := n.best h0 (fun q x hx hn => by
      have hx : c.qs q = some x := hx
      have hq := (h.qlive q x hx).2
      by_cases hd : c.due x
      · exact .inl ⟨hq, hd.2.1, by have := hd.2.2; omega⟩
      · right
        have := (nextBest_fold c (c.qlist.filterMap c.qs) 0).2 x (List.mem_filterMap.mpr ⟨q, hq, hx⟩) hn hd
        exact ⟨this.1, by simp only; omega⟩)
    intro q x hx hn
    rcases hb q x hx hn with ⟨m, _⟩ | hh
    · cases m
    · have := rest_now n.rest
      have := congrArg TV.sec this
      simp only at this
      exact ⟨hh.1, by show _ ≤ _; have := hh.2; simp only; omega⟩

theorem GcOpt.tends {env : Env} {c c' : Core} (n : GcOpt env c c') :
    ∃ x evs, Tends c { c' with expireall := x } evs ∧ ∀ j, ∀ a ∈ c'.rrs j, a ∈ c.rrs j := by
  cases n with
  | no => exact ⟨c.expireall, _, (Still.refl _).tends, fun _ _ m => m⟩
  | yes h _ e =>
    obtain ⟨c1, evs, e1, s1, r1, _⟩ := h.gc env
    rw [e] at e1
    cases e1
    exact ⟨c1.expireall, evs, s1.tends, fun j a m => by
      have m : a ∈ c1.rrs j := m
      rw [r1] at m
      exact (List.mem_filter.mp m).1⟩

/-! ### A whole packet -/

theorem Upd.start {env : Env} {suf : List Nat} {s t : QSt} (n : Upd env suf s t) : CInv s.c := by
  cases n <;> assumption

theorem Upd.log {env : Env} {suf : List Nat} {s t : QSt} (n : Upd env suf s t) : ∃ evs, t.c.log = s.c.log ++ evs := by
  induction n with
  | done => exact ⟨[], by simp⟩
  | idle _ _ _ _ ih => exact ih
  | @again _ _ s _ _ c1 evs _ _ _ _ _ _ hc _ _ _ ih =>
    obtain ⟨e2, h2⟩ := ih
    have h2 : _ = c1.log ++ e2 := h2
    exact ⟨evs ++ e2, by rw [h2, hc.log, List.append_assoc]⟩
  | ask _ _ _ _ _ ih => exact ih

theorem Upd.qr {env : Env} {suf : List Nat} {s t : QSt} (n : Upd env suf s t) : t.m.qr = s.m.qr := by
  have kn : ∀ (c : Core) (x : Query) (es : List Cached) (m : Out), (knownLoop c x es m).qr = m.qr := by
    intro c x es
    induction es with
    | nil => exact fun _ => rfl
    | cons e es ih =>
      intro m
      unfold knownLoop
      split
      · split
        · exact (ih _).trans rfl
        · rfl
      · exact ih m
  induction n with
  | done => rfl
  | idle _ _ _ _ ih => exact ih
  | again _ _ _ _ _ _ _ _ _ ih => exact ih
  | ask _ _ _ _ _ ih => exact ih.trans (kn ..)

/-- No question is asked more than three times in a row. -/
def Tries (c : Core) : Prop := ∀ q x, c.qs q = some x → x.tries ≤ 3

theorem Tends.tries {c c' : Core} {evs : List Event} (h : Tends c c' evs) (ht : Tries c) : Tries c' := by
  intro q x hx
  rcases h.new q x hx with ⟨cb, hy⟩ | ⟨_, _, _, e, _⟩
  · exact ht q { x with cb := cb } hy
  · omega

theorem Upd.tries {env : Env} {suf : List Nat} {s t : QSt} (n : Upd env suf s t) (ht : Tries s.c) : Tries t.c := by
  induction n with
  | done => exact ht
  | idle _ _ _ _ ih => exact ih ht
  | @again p _ s _ y c1 _ cb _ _ _ _ _ hc _ _ _ ih =>
    refine ih fun q x hx => ?_
    have hx : upd c1.qs p _ q = some x := hx
    by_cases e : q = p
    · subst e
      rw [upd_same] at hx
      cases hx
      exact Nat.zero_le _
    · rw [upd_other _ _ _ _ e] at hx
      exact hc.tends.tries ht q x hx
  | @ask p _ s _ y _ hy _ h3 _ ih =>
    refine ih fun q x hx => ?_
    have hx : upd s.c.qs p _ q = some x := hx
    by_cases e : q = p
    · subst e
      rw [upd_same] at hx
      cases hx
      have := ht q y hy
      show y.tries + 1 ≤ 3
      omega
    · rw [upd_other _ _ _ _ e] at hx
      exact ht q x hx

/-- What a packet does to a query. -/
inductive Move (c : Core) (x y : Query) (ret : Nat) : Bool → Prop
  | turn {b : Bool} (h : Turn c x.name x.type x.nexttry x.tries y.nexttry y.tries b) (hb : b = true → 0 < ret) : Move c x y ret b
  /-- questions are not looked at -/
  | same (h1 : y.nexttry = x.nexttry) (h2 : y.tries = x.tries)
      (h : ret = 0 → c.shutdown = true ∨ ¬ (c.checkqlist ≠ 0 ∧ c.now.sec ≥ c.checkqlist)) : Move c x y ret false

theorem Turn.asks {c : Core} {x : Query} {n' k' : Nat} {b : Bool} (h : Turn c x.name x.type x.nexttry x.tries n' k' b)
    (ht : x.tries ≤ 3) : b = true ↔ c.due x := by
  unfold Core.due
  generalize x.nexttry = n, x.tries = k at h ht
  cases h with
  | idle h => simp only [Bool.false_eq_true, false_iff]; omega
  | ask h h3 => simp only [true_iff]; omega
  | again h _ => simp only [Bool.false_eq_true, false_iff]; omega

/-- The packet is one with questions only if there are such. -/
theorem Asking.move {env : Env} {c c' : Core} {ret : Nat} {m : Out} (n : Asking env c ret m c') (ht : Tries c)
    (hns : ∀ r, (Section.ns, r) ∈ m.tags → ∃ p ∈ entries m.ops, p.sec = .ns) {q : Nat} {x : Query} (hx : c.qs q = some x) :
    ∃ evs y, c'.log = c.log ++ evs ∧ (Event.unregistered x.name x.type ∈ evs ∨ c'.qs q = some y) ∧
      y.name = x.name ∧ y.type = x.type ∧ Move c x y ret (m.asks x.name x.type) := by
  cases n with
  | other e h hr =>
    have st := Still.recfree e
    have ha : m.asks x.name x.type = false := by
      unfold Out.asks
      rcases h with h | h | ⟨r, h⟩
      · simp [h]
      · simp [h, questions]
      · obtain ⟨p, mp, hp⟩ := hns r h
        have : (entries m.ops).all (fun p => p.sec != .ns) = false := by
          rw [List.all_eq_false]
          exact ⟨p, mp, by simp [hp]⟩
        simp [this]
    refine ⟨[], x, st.log, .inr (by rw [st.qs, hx]), rfl, rfl, ?_⟩
    rw [ha]
    exact .same rfl rfl fun h => .inl (hr h)
  | @asking c2 c3 e nq ng =>
    have st := Still.recfree e
    have hx2 : c2.qs q = some x := by rw [st.qs, hx]
    have ht2 : Tries c2 := st.tends.tries ht
    have key : ∃ ev1, c3.log = c2.log ++ ev1 ∧ ∃ y, c3.qs q = some y ∧ y.name = x.name ∧ y.type = x.type ∧
        Move c2 x y ret (m.asks x.name x.type) := by
      cases nq with
      | no _ hn => exact ⟨[], by simp, x, hx2, rfl, rfl, .same rfl rfl fun _ => .inr hn⟩
      | @yes t h1 h2 n =>
        obtain ⟨ev1, hl⟩ := n.log
        have hi : CInv c2 := n.start
        obtain ⟨y, b, hy, e1, e2, tn, hb⟩ := n.mine hi.lnodup ((hi.qlive q x hx2).2) hx2
        refine ⟨ev1, hl, y, hy, e1, e2, ?_⟩
        have : t.m.asks x.name x.type = b := by
          have hq : questions t.m.ops = (c2.dueQs c2.qlist).map fun x => (x.name, x.type, c2.cls) := by
            rw [n.questions]
            show questions ([] ++ _) = _
            rw [List.nil_append, questions_due]
          have hall : (entries t.m.ops).all (fun p => p.sec != .ns) = true := by
            rw [List.all_eq_true]
            intro p mp
            rcases n.sound hi.lnodup hi.qlist p mp with h | ⟨_, _, _, _, _, _, _, _, _, rfl⟩
            · have h : p ∈ entries ([] ++ _) := h
              rw [List.nil_append, entries_due] at h
              cases h
            · rfl
          have hqr : t.m.qr = false := n.qr
          unfold Out.asks
          rw [hqr, hall, hq, Bool.eq_iff_iff, tn.asks (ht2 q x hx2)]
          simp only [Bool.not_false, Bool.true_and, List.any_eq_true, List.mem_map, decide_eq_true_eq]
          constructor
          · rintro ⟨_, ⟨z, mz, rfl⟩, hz1, hz2⟩
            obtain ⟨p, mp, hp, hd⟩ := mem_dueQs.mp mz
            have := hi.quniq p q z x hp hx2 hz1 hz2
            subst this
            rw [hx2] at hp
            cases hp
            exact hd
          · exact fun hd => ⟨_, ⟨x, mem_dueQs.mpr ⟨q, (hi.qlive q x hx2).2, hx2, hd⟩, rfl⟩, rfl, rfl⟩
        rw [this]
        exact .turn tn hb
    obtain ⟨ev1, hl1, y, hy, e1, e2, mv⟩ := key
    obtain ⟨ex, ev2, tg, _⟩ := ng.tends
    have tl : c'.log = _ := tg.log
    have mv : Move c x y ret (m.asks x.name x.type) := by
      generalize m.asks x.name x.type = b at mv
      cases mv with
      | turn h hb => exact .turn (h.mono st.now fun j a m => st.rrs j ▸ m) hb
      | same h1 h2 h =>
        refine .same h1 h2 fun hr => ?_
        have := h hr
        have hsd : c2.shutdown = c.shutdown := (congrArg Core.shutdown e : c2.recfree.shutdown = c.recfree.shutdown)
        rw [st.chk, st.now, hsd] at this
        exact this
    have hl : c'.log = c.log ++ (ev1 ++ ev2) := by rw [tl, hl1, st.log]; simp
    rcases tg.kept q y hy with ⟨cb, h⟩ | ⟨_, h⟩
    · refine ⟨_, _, hl, .inr h, e1, e2, ?_⟩
      generalize m.asks x.name x.type = b at mv ⊢
      cases mv with
      | turn h hb => exact .turn h hb
      | same h1 h2 h => exact .same h1 h2 h
    · rw [e1, e2] at h
      exact ⟨_, y, hl, .inl (by simp [h]), e1, e2, mv⟩

theorem QuestOpt.sub {env : Env} {c c' : Core} {m m' : Out} {ret : Nat} (n : QuestOpt env m c ret m' c') :
    ∀ j, ∀ a ∈ c'.rrs j, a ∈ c.rrs j := by
  cases n with
  | no => exact fun _ _ m => m
  | yes _ _ n => exact n.sub

theorem Asking.sub {env : Env} {c c' : Core} {ret : Nat} {m : Out} (n : Asking env c ret m c') :
    ∀ j, ∀ a ∈ c'.rrs j, a ∈ c.rrs j := by
  cases n with
  | other e _ _ => exact fun j a m => (Still.recfree e).rrs j ▸ m
  | asking e nq ng =>
    obtain ⟨_, _, _, g⟩ := ng.tends
    exact fun j a m => (Still.recfree e).rrs j ▸ nq.sub j a (g j a m)

theorem QuestOpt.tries {env : Env} {c c' : Core} {m m' : Out} {ret : Nat} (n : QuestOpt env m c ret m' c') (h : Tries c) :
    Tries c' := by
  cases n with
  | no => exact h
  | yes _ _ n => exact n.tries h

theorem Asking.tries {env : Env} {c c' : Core} {ret : Nat} {m : Out} (n : Asking env c ret m c') (h : Tries c) : Tries c' := by
  cases n with
  | other e _ _ => exact (Still.recfree e).tends.tries h
  | asking e nq ng =>
    obtain ⟨_, _, g, _⟩ := ng.tends
    exact g.tries (nq.tries ((Still.recfree e).tends.tries h))

theorem QuestOpt.now {env : Env} {c c' : Core} {m m' : Out} {ret : Nat} (n : QuestOpt env m c ret m' c') : c'.now = c.now := by
  cases n with
  | no => rfl
  | yes _ _ n => exact rest_now n.rest

theorem QuestOpt.start {env : Env} {c c' : Core} {m m' : Out} {ret : Nat} (n : QuestOpt env m c ret m' c') : CInv c := by
  cases n with
  | no h _ => exact h
  | yes _ _ n => exact n.start

theorem Asking.now {env : Env} {c c' : Core} {ret : Nat} {m : Out} (n : Asking env c ret m c') : c'.now = c.now := by
  cases n with
  | other e _ _ => exact (Still.recfree e).now
  | asking e nq ng =>
    obtain ⟨_, _, g, _⟩ := ng.tends
    exact (show c'.now = _ from g.now).trans (nq.now.trans (Still.recfree e).now)

theorem Asking.timely {env : Env} {c c' : Core} {ret : Nat} {m : Out} {T : Nat} (n : Asking env c ret m c') (h : Timely T c)
    (hT : c.now.sec ≤ T) (h0 : 0 < c.now.sec) : Timely T c' := by
  cases n with
  | other e _ _ => exact (Still.recfree e).tends.timely h hT h0
  | asking e nq ng =>
    obtain ⟨_, _, g, _⟩ := ng.tends
    have st := Still.recfree e
    have hn := nq.now
    rw [st.now] at hn
    exact g.timely (nq.timely nq.start (st.tends.timely h hT h0) (by rw [st.now]; exact hT) (by rw [st.now]; exact h0))
      (by rw [hn]; exact hT) (by rw [hn]; exact h0)

end Mdns
