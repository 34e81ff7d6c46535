import Verif.Lemmas.Settle
import Verif.Props.Questions

/-!
# Packets made one after another come to an end

Every packet that is made lowers a measure: first the packets the records wait for, then the
number of cached entries, then what the queries have left.
-/

namespace Mdns

/-- Cached entries. -/
def cacheSize (c : Core) : Nat := sumTo (fun i => (c.cache i).length) lprime

/-- Seconds from an ask with `tries` asks before it to the end of the series. -/
def tail : Nat → Nat
  | 0 => 6
  | 1 => 5
  | 2 => 3
  | _ => 0

/-- What a query has left at the time `now`, when all entries expire by `M`. -/
def Query.left (M now : Nat) (x : Query) : Nat :=
  if x.nexttry = 0 then 0 else (3 - x.tries) + 4 * (M - (max x.nexttry now + tail x.tries))

/-- What the queries have left. -/
def leftOver (M : Nat) (c : Core) : Nat :=
  sumTo (fun q => match c.qs q with | none => 0 | some x => x.left M c.now.sec) c.nextq

/-- All entries expire by `M`. -/
def Until (M : Nat) (c : Core) : Prop := ∀ j, ∀ a ∈ c.rrs j, a.ttl ≤ M

theorem Query.left_mono {M now now' : Nat} (h : now ≤ now') (x : Query) : x.left M now' ≤ x.left M now := by
  unfold Query.left
  split
  · exact Nat.le_refl _
  · omega

theorem Query.left_ask {M now : Nat} {x : Query} (hn : x.nexttry ≠ 0) (hd : x.nexttry ≤ now) (ht : x.tries ≤ 3)
    (h3 : x.tries ≠ 3) :
    ({ x with nexttry := now + (x.tries + 1), tries := x.tries + 1 } : Query).left M now + 1 ≤ x.left M now := by
  unfold Query.left
  dsimp only
  rw [if_neg hn, if_neg (by omega)]
  have : x.tries = 0 ∨ x.tries = 1 ∨ x.tries = 2 := by omega
  rcases this with h | h | h <;> rw [h] <;> simp only [tail] <;> omega

theorem Query.left_again {M now nt : Nat} {x : Query} {cb : Nat} (hn : x.nexttry ≠ 0) (hd : x.nexttry ≤ now) (h3 : x.tries = 3)
    (ht : nt = 0 ∨ now < M) :
    ({ x with cb := cb, nexttry := nt, tries := 0 } : Query).left M now ≤ x.left M now := by
  unfold Query.left
  dsimp only
  rw [if_neg hn, h3]
  split
  · exact Nat.zero_le _
  · simp only [tail]
    omega

theorem sumTo_change {f g : Nat → Nat} {q : Nat} (h : ∀ r, r ≠ q → g r = f r) : ∀ n, q < n →
    sumTo g n + f q = sumTo f n + g q
  | 0, hn => absurd hn (Nat.not_lt_zero _)
  | n + 1, hn => by
    unfold sumTo
    by_cases e : q = n
    · subst e
      have : sumTo g q = sumTo f q := by
        have : ∀ m, m ≤ q → sumTo g m = sumTo f m := by
          intro m
          induction m with
          | zero => intro _; rfl
          | succ m ih =>
            intro hm
            unfold sumTo
            rw [ih (by omega), h m (by omega)]
        exact this q (Nat.le_refl _)
      omega
    · have := sumTo_change h n (by omega)
      have := h n (Ne.symm e)
      omega

/-- Changing one query. -/
theorem leftOver_set {M : Nat} {c c' : Core} {q : Nat} {x y : Query} (hq : q < c.nextq) (hx : c.qs q = some x)
    (hn : c'.nextq = c.nextq) (ht : c'.now = c.now) (e : c'.qs = upd c.qs q (some y)) :
    leftOver M c' + x.left M c.now.sec = leftOver M c + y.left M c.now.sec := by
  unfold leftOver
  rw [hn, ht, e]
  have h := sumTo_change (q := q)
    (f := fun q => match c.qs q with | none => 0 | some x => x.left M c.now.sec)
    (g := fun r => match upd c.qs q (some y) r with | none => 0 | some x => x.left M c.now.sec)
    (by
      intro r hr
      rw [upd_other _ _ _ _ hr]) c.nextq hq
  rw [upd_same, hx] at h
  exact h

theorem leftOver_mono {M : Nat} {c : Core} {t : TV} (h : c.now.sec ≤ t.sec) : leftOver M { c with now := t } ≤ leftOver M c := by
  refine sumTo_le (fun q => ?_) _
  show (match c.qs q with | none => 0 | some x => x.left M t.sec) ≤ _
  cases c.qs q with
  | none => exact Nat.le_refl _
  | some x => exact x.left_mono h

theorem rrs_length (c : Core) (j : Nat) : (c.rrs j).length = (c.cache j).length := List.length_map ..

/-- The sweep of a chain changes nothing, or removes an entry. -/
theorem CInv.cExpire_size {c c' : Core} (h : CInv c) {env : Env} {i : Nat} (hi : i < lprime) (e : c.cExpire env i = .ok c') :
    (c' = c ∧ ∀ a ∈ c.rrs i, c.now.sec < a.ttl) ∨ cacheSize c' < cacheSize c := by
  obtain ⟨h1, h2⟩ := h.cExpire_rrs e
  by_cases hl : ∀ a ∈ c.rrs i, c.now.sec < a.ttl
  · left
    refine ⟨?_, hl⟩
    have := cExpire_unexpired env (c := c) (i := i) fun e m => hl e.rr (List.mem_map_of_mem m)
    rw [this] at e
    cases e
    rfl
  · right
    have hlt : ((c.rrs i).filter c.live).length < (c.rrs i).length := by
      refine Nat.lt_of_le_of_ne (List.length_filter_le ..) fun e => hl ?_
      intro a m
      have := List.length_filter_eq_length_iff.mp e a m
      simpa [Core.live] using this
    refine sumTo_lt (r := i) (fun j => ?_) ?_ _ hi
    · rw [← rrs_length, ← rrs_length]
      by_cases ej : j = i
      · subst ej
        rw [h2]
        exact Nat.le_of_lt hlt
      · rw [h1 j ej]
        exact Nat.le_refl _
    · show (c'.cache i).length < (c.cache i).length
      rw [← rrs_length, ← rrs_length, h2]
      exact hlt

theorem Upd.shrink {env : Env} {suf : List Nat} {s t : QSt} (n : Upd env suf s t) : cacheSize t.c ≤ cacheSize s.c := by
  induction n with
  | done => exact Nat.le_refl _
  | idle _ _ _ _ ih => exact ih
  | again h _ _ _ he _ _ _ _ ih =>
    refine Nat.le_trans ih ?_
    rcases h.cExpire_size (bucket_lt _ _ lprime_pos) he with ⟨e, _⟩ | e
    · subst e
      exact Nat.le_refl _
    · exact Nat.le_of_lt e
  | ask _ _ _ _ _ ih => exact ih

/-- The second loop over the queries. -/
theorem Upd.left {env : Env} {M : Nat} {suf : List Nat} {s t : QSt} (n : Upd env suf s t) (hM : Until M s.c) (ht : Tries s.c) :
    cacheSize t.c < cacheSize s.c ∨
      (t.c.cache = s.c.cache ∧ leftOver M t.c + t.ret ≤ leftOver M s.c + s.ret) := by
  induction n with
  | done => exact .inr ⟨rfl, Nat.le_refl _⟩
  | idle _ _ _ _ ih => exact ih hM ht
  | @again q suf s t x c1 evs cb h hx hi h3 he hc hn hx1 n ih =>
    rcases h.cExpire_size (bucket_lt _ _ lprime_pos) he with ⟨e, hl⟩ | e
    · subst e
      rw [hx] at hx1
      obtain rfl : x.cb = cb := congrArg Query.cb (Option.some.inj hx1)
      have ht1 : Tries (s.c.resetQ q x) := by
        intro p y hy
        have hy : upd s.c.qs q _ p = some y := hy
        by_cases e : p = q
        · subst e
          rw [upd_same] at hy
          cases hy
          exact Nat.zero_le _
        · rw [upd_other _ _ _ _ e] at hy
          exact ht p y hy
      rcases ih hM ht1 with h1 | ⟨h1, h2⟩
      · exact .inl h1
      · refine .inr ⟨h1, ?_⟩
        have hs := leftOver_set (M := M) (c' := s.c.resetQ q x) (y := { x with nexttry := s.c.dueTime x, tries := 0 })
          (h.qbound q x hx) hx rfl rfl rfl
        have hd : s.c.dueTime x = 0 ∨ s.c.now.sec < M := by
          rcases dueTime_pick s.c x with h0 | ⟨a, ma, _⟩
          · exact .inl h0
          · exact .inr (Nat.lt_of_lt_of_le (hl a ma) (hM _ a ma))
        have hle := Query.left_again (M := M) (now := s.c.now.sec) (cb := x.cb) (x := x) (by omega) (by omega) h3 hd
        have h2 : leftOver M t.c + t.ret ≤ leftOver M (s.c.resetQ q x) + s.ret := h2
        have hle : ({ x with nexttry := s.c.dueTime x, tries := 0 } : Query).left M s.c.now.sec ≤ x.left M s.c.now.sec := hle
        omega
    · exact .inl (Nat.lt_of_le_of_lt n.shrink e)
  | @ask q suf s t x h hx hi h3 n ih =>
    have ht1 : Tries (s.c.askedQ q x) := by
      intro p y hy
      have hy : upd s.c.qs q _ p = some y := hy
      by_cases e : p = q
      · subst e
        rw [upd_same] at hy
        cases hy
        have := ht p x hx
        show x.tries + 1 ≤ 3
        omega
      · rw [upd_other _ _ _ _ e] at hy
        exact ht p y hy
    rcases ih hM ht1 with h1 | ⟨h1, h2⟩
    · exact .inl h1
    · refine .inr ⟨h1, ?_⟩
      have hs := leftOver_set (M := M) (c' := s.c.askedQ q x)
        (y := { x with nexttry := s.c.now.sec + (x.tries + 1), tries := x.tries + 1 })
        (h.qbound q x hx) hx rfl rfl rfl
      have hle := Query.left_ask (M := M) (now := s.c.now.sec) (x := x) (by omega) (by omega) (ht q x hx) h3
      have h2 : leftOver M t.c + t.ret ≤ leftOver M (s.c.askedQ q x) + (s.ret + 1) := h2
      omega

theorem QuestOpt.left {env : Env} {M : Nat} {c c' : Core} {m m' : Out} {ret : Nat} (n : QuestOpt env m c ret m' c')
    (hM : Until M c) (ht : Tries c) (hr : ret ≠ 0) :
    cacheSize c' < cacheSize c ∨ (c'.cache = c.cache ∧ leftOver M c' < leftOver M c) := by
  cases n with
  | no => exact absurd rfl hr
  | @yes t _ _ n =>
    rcases n.left hM ht with h | ⟨h1, h2⟩
    · exact .inl h
    · refine .inr ⟨h1, ?_⟩
      show leftOver M t.c < _
      dsimp only at h2
      omega

theorem gc_go_size {env : Env} : ∀ (n : Nat) {c c' : Core}, CInv c → n ≤ lprime → Core.gc.go env n c = .ok c' →
    c' = c ∨ cacheSize c' < cacheSize c
  | 0, c, c', _, _, e => by
    cases e
    exact .inl rfl
  | n + 1, c, c', h, hn, e => by
    unfold Core.gc.go at e
    obtain ⟨c1, evs, e1, s1, _⟩ := h.cExpire env (lprime - (n + 1))
    rw [e1] at e
    dsimp only at e
    have h2 := gc_go_size n s1.inv (by omega) e
    rcases h.cExpire_size (by omega) e1 with ⟨h1, _⟩ | h1
    · subst h1
      exact h2
    · rcases h2 with rfl | h2
      · exact .inr h1
      · exact .inr (Nat.lt_trans h2 h1)

theorem GcOpt.size {env : Env} {c c' : Core} (n : GcOpt env c c') :
    (∃ x, c' = { c with expireall := x }) ∨ cacheSize c' < cacheSize c := by
  cases n with
  | no => exact .inl ⟨c.expireall, rfl⟩
  | yes h _ e =>
    unfold Core.gc at e
    split at e
    · rename_i c1 e1
      cases e
      rcases gc_go_size lprime h (Nat.le_refl _) e1 with rfl | h2
      · exact .inl ⟨_, rfl⟩
      · exact .inr h2
    · cases e
    · cases e

theorem cacheSize_congr {c c' : Core} (h : c'.cache = c.cache) : cacheSize c' = cacheSize c := by
  unfold cacheSize
  rw [h]

theorem leftOver_congr {M : Nat} {c c' : Core} (h1 : c'.qs = c.qs) (h2 : c'.nextq = c.nextq) (h3 : c'.now = c.now) :
    leftOver M c' = leftOver M c := by
  unfold leftOver
  rw [h1, h2, h3]

/-- A packet has entries, or is made of questions. -/
theorem OutMsg.sort {env : Env} {c : Core} {l : Lists} {ret : Nat} {m : Out} {to : Addr} {c' : Core} {l' : Lists}
    (n : OutMsg env c l ret m to c' l') (h0 : ret ≠ 0) : m.tags ≠ [] ∨
      ∃ m1 c2 c3, c2.recfree = c.recfree ∧ QuestOpt env m1 c2 ret m c3 ∧ GcOpt env c3 c' := by
  cases n with
  | @unicast u us x _ seen hu hx na =>
    left
    obtain ⟨xs, e⟩ := na.tags
    rw [e, put_tags]
    simp
  | @shutdown s1 s2 hu n1 n2 _ =>
    left
    have a := n2.answering (n1.answering (.start c l))
    intro e
    rw [a.ret, e] at h0
    exact h0 rfl
  | @normal s1 s2 _ _ _ _ hu n1 n2 _ n3 =>
    have a := n2.answering (n1.answering (.start c l))
    cases n3 with
    | @answers s3 _ _ np na hr =>
      left
      have a := np.answering a
      obtain ⟨xs, e⟩ := na.tags
      rw [e]
      intro e
      rw [a.ret, (List.append_eq_nil_iff.mp e).1] at hr
      exact absurd rfl hr
    | @probes s3 s4 m0 seen np na hr nb hr2 =>
      left
      obtain ⟨rs, hn, e, er⟩ := nb.tags
      have er : s4.ret = s3.ret + rs.length := er
      rw [e]
      intro e
      have := (List.append_eq_nil_iff.mp e).2
      rw [List.map_eq_nil_iff] at this
      rw [this, hr] at er
      exact hr2 er
    | @questions s3 s4 m0 seen _ _ _ _ np na hr nb hr2 nq ng =>
      right
      exact ⟨_, _, _, nb.recfree.trans (np.recfree.trans (n2.recfree.trans n1.recfree)), nq, ng⟩

/-- No packet adds to what waits. -/
theorem OutMsg.load_le {env : Env} {c : Core} {l : Lists} {ret : Nat} {m : Out} {to : Addr} {c' : Core} {l' : Lists}
    (n : OutMsg env c l ret m to c' l') (hu : ∀ u ∈ c.uanswers, u.to.port ≠ 5353) (i : RInv c l) (i' : RInv c' l') :
    Mdns.load c' l' ≤ Mdns.load c l ∧ (m.tags ≠ [] → Mdns.load c' l' < Mdns.load c l) := by
  have hw := n.weights hu i i'
  have hlen : c'.uanswers.length ≤ c.uanswers.length ∧ (∀ u us, c.uanswers = u :: us → c'.uanswers.length < c.uanswers.length) := by
    have h0 := n.uans
    have nil : c.uanswers = [] → c'.uanswers.length ≤ c.uanswers.length ∧
        (∀ u us, c.uanswers = u :: us → c'.uanswers.length < c.uanswers.length) := by
      intro e
      refine ⟨?_, fun u us e1 => by rw [e] at e1; cases e1⟩
      rw [e] at h0 ⊢
      cases e : c'.uanswers with
      | nil => exact Nat.le_refl _
      | cons u us => exact absurd (h0 u (by rw [e]; simp)) (by simp)
    cases n with
    | @unicast u us x _ seen hu hx na =>
      have : ({ c with uanswers := us, recs := upd c.recs u.r (some { x with lastSent := c.now }) } : Core).uanswers = us := rfl
      rw [this, hu]
      exact ⟨by simp, fun _ _ _ => by simp⟩
    | shutdown h => exact nil h
    | normal h => exact nil h
  refine ⟨by unfold Mdns.load; omega, fun ht => ?_⟩
  unfold Mdns.load
  have dec : (∃ r, ((.an, r) ∈ m.tags ∧ (to.port == 5353) = true) ∨ (.ns, r) ∈ m.tags ∨
          (r ∈ l.q .probing ∧ r ∉ l'.q .probing)) → c'.uanswers.length + sumTo (fun r => (view c' l' r).weight) l'.size <
      c.uanswers.length + sumTo (fun r => (view c l r).weight) l.size := by
    intro h2
    have := hw.2 h2
    omega
  cases n.kind with
  | answers as xs e ha _ _ _ hto =>
    cases as with
    | nil => exact absurd rfl ha
    | cons r rs =>
      refine dec ⟨r, .inl ⟨by rw [e]; simp, ?_⟩⟩
      rw [hto]
      cases c.family <;> rfl
  | probes rs _ e ha =>
    cases rs with
    | nil => exact absurd rfl ha
    | cons r rs => exact dec ⟨r, .inr (.inl (by rw [e]; simp))⟩
  | questions e _ => exact absurd e ht
  | unicast u us xs hu _ _ _ _ =>
    have := hlen.2 u us hu
    omega

/-- Every packet lowers the measure. -/
theorem OutMsg.drains {env : Env} {M : Nat} {c : Core} {l : Lists} {ret : Nat} {m : Out} {to : Addr} {c' : Core} {l' : Lists}
    (n : OutMsg env c l ret m to c' l') (hu : ∀ u ∈ c.uanswers, u.to.port ≠ 5353) (i : RInv c l) (i' : RInv c' l')
    (ht : Tries c) (hM : Until M c) (hr : ret ≠ 0) :
    Mdns.load c' l' < Mdns.load c l ∨ Mdns.load c' l' ≤ Mdns.load c l ∧
      (cacheSize c' < cacheSize c ∨ cacheSize c' = cacheSize c ∧ leftOver M c' < leftOver M c) := by
  obtain ⟨h1, h2⟩ := n.load_le hu i i'
  rcases n.sort hr with h | ⟨m1, c2, c3, e, nq, ng⟩
  · exact .inl (h2 h)
  · refine .inr ⟨h1, ?_⟩
    have st := Still.recfree e
    have ec : c2.cache = c.cache := (congrArg Core.cache e : c2.recfree.cache = c.recfree.cache)
    have eq : c2.qs = c.qs := (congrArg Core.qs e : c2.recfree.qs = c.recfree.qs)
    have en : c2.nextq = c.nextq := (congrArg Core.nextq e : c2.recfree.nextq = c.recfree.nextq)
    have e1 := cacheSize_congr ec
    have e2 := leftOver_congr (M := M) eq en (recfree_now e)
    have hM2 : Until M c2 := fun j a ma => hM j a (by unfold Core.rrs at ma ⊢; rwa [ec] at ma)
    have ht2 : Tries c2 := fun q x hx => ht q x (by rwa [eq] at hx)
    rw [← e1, ← e2]
    rcases nq.left hM2 ht2 hr with h3 | ⟨h3, h4⟩
    · left
      rcases ng.size with ⟨x, rfl⟩ | h5
      · exact h3
      · exact Nat.lt_trans h5 h3
    · have h3 := cacheSize_congr h3
      rcases ng.size with ⟨x, rfl⟩ | h5
      · exact .inr ⟨h3, h4⟩
      · left
        omega

end Mdns
