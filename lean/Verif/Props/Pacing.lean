import Verif.Props.Questions
import Verif.Props.Renewal

/-!
# C98: questions are not repeated too soon
-/

namespace Mdns

/-! ### Specification -/

/-- Questions asked in rounds of three: the second one second after the first or later, the third two seconds after
that, and the next round three seconds after that. -/
def Spaced (l : List Nat) : Prop := ∀ i a b, l[i]? = some a → l[i + 1]? = some b → a + (i % 3 + 1) ≤ b

/-! ### Proof -/

/-- Where in a round a query is, at time `T`. -/
structure Round (l : List Nat) (T n k : Nat) : Prop where
  paced : Spaced l
  count : k = l.length % 3 ∨ k = 3 ∧ l.length % 3 = 0 ∧ l ≠ []
  last : ∀ t, l.getLast? = some t → t ≤ T ∧ (k ≠ 0 → n = t + k) ∧ (k = 0 → t + 3 ≤ T)

theorem Round.later {l : List Nat} {T T' n k : Nat} (h : Round l T n k) (hT : T ≤ T') : Round l T' n k :=
  ⟨h.paced, h.count, fun t ht => by have := h.last t ht; exact ⟨by omega, this.2.1, fun hk => by have := this.2.2 hk; omega⟩⟩

theorem Spaced.snoc {l : List Nat} (h : Spaced l) {t : Nat}
    (hl : ∀ s, l.getLast? = some s → s + ((l.length - 1) % 3 + 1) ≤ t) : Spaced (l ++ [t]) := by
  intro i a b ha hb
  by_cases hi : i + 1 < l.length
  · rw [List.getElem?_append_left (by omega)] at ha
    rw [List.getElem?_append_left hi] at hb
    exact h i a b ha hb
  · have hlen : i + 1 = l.length := by
      have := (List.getElem?_eq_some_iff.mp hb).1
      simp at this
      omega
    rw [hlen, List.getElem?_append_right (Nat.le_refl _)] at hb
    simp at hb
    subst hb
    rw [List.getElem?_append_left (by omega)] at ha
    have := hl a (by rw [List.getLast?_eq_getElem?, ← hlen]; exact ha)
    rw [← hlen] at this
    exact this

theorem Round.turn {l : List Nat} {T n k n' k' : Nat} {b : Bool} {c : Core} {host : Bytes} {type : Nat}
    (h : Round l T n k) (hT : T ≤ c.now.sec) (t : Turn c host type n k n' k' b) :
    Round (l ++ if b then [c.now.sec] else []) c.now.sec n' k' := by
  cases t with
  | idle _ => simpa using h.later hT
  | ask hn h3 =>
    have hk : k = l.length % 3 := by
      rcases h.count with h1 | ⟨h1, _⟩
      · exact h1
      · exact absurd h1 h3
    refine ⟨?_, ?_, ?_⟩
    · simp only [if_true]
      refine h.paced.snoc fun s hs => ?_
      have hne : l.length ≠ 0 := by
        intro h0
        rw [List.length_eq_zero_iff.mp h0] at hs
        cases hs
      obtain ⟨h1, h2, h4⟩ := h.last s hs
      by_cases hz : k = 0
      · have := h4 hz
        omega
      · have := h2 hz
        omega
    · simp
      omega
    · intro s hs
      simp at hs
      subst hs
      exact ⟨Nat.le_refl _, fun _ => rfl, fun h0 => by omega⟩
  | again hn h' =>
    simp only [Bool.false_eq_true, if_false, List.append_nil]
    have hc : l.length % 3 = 0 := by
      rcases h.count with h1 | ⟨_, h1, _⟩
      · omega
      · exact h1
    refine ⟨h.paced, .inl hc.symm, fun s hs => ?_⟩
    obtain ⟨h1, h2, _⟩ := h.last s hs
    have := h2 (by decide)
    exact ⟨by omega, fun h0 => absurd rfl h0, fun _ => by omega⟩

/-- The query is registered, and asked as the calls say. -/
def Pacing (d : D Ptrs) (host : Bytes) (type T : Nat) (l : List Nat) : Prop :=
  ∃ q x, d.c.qs q = some x ∧ x.name = host ∧ x.type = type ∧ Round l T x.nexttry x.tries

theorem Later.pacing {env : Env} {d d' : D Ptrs} {h : List Call} {host : Bytes} {type T T' : Nat} {evs : List Event}
    (n : Later env d T h d' T') (hr : Reach env d) (h0 : Pacing d host type T [])
    (hl : d'.c.log = d.c.log ++ evs) (hn : .unregistered host type ∉ evs) : Pacing d' host type T' (askTimes host type h) := by
  induction n generalizing evs with
  | nil => exact h0
  | @snoc h d1 d2 o a T1 T2 n hs e hT hle ih =>
    have hr1 := n.calls.reach' hr
    obtain ⟨ev1, hl1⟩ := n.calls.log hr
    obtain ⟨ev2, hl2⟩ := (After.step .refl hs e).log hr1
    have hev : evs = ev1 ++ ev2 := by
      rw [hl2, hl1, List.append_assoc] at hl
      exact (List.append_cancel_left hl).symm
    subst hev
    obtain ⟨q, x, hx, rfl, rfl, rd⟩ := ih hl1 fun m => hn (by simp [m])
    obtain ⟨ev3, y, hl3, hy, e1, e2, mv⟩ := hr1.move hs e hx
    rw [hl2] at hl3
    have := List.append_cancel_left hl3
    subst this
    rw [askTimes_snoc]
    have hy := hy.resolve_left fun m => hn (by simp [m])
    refine ⟨q, y, hy, e1, e2, ?_⟩
    rcases mv with ⟨h1, h2, h3, _⟩ | ⟨t, ret, m, to, rfl, rfl, mv⟩
    · rw [h1, h2, h3]
      simpa using rd.later hle
    · have hT : T2 = t.sec := hT
      subst hT
      show Round (_ ++ (if m.asks x.name x.type = true then some t.sec else none).toList) _ _ _
      generalize m.asks x.name x.type = b at mv
      cases mv with
      | turn h _ =>
        have := rd.turn (c := { d1.c with now := t }) hle h
        cases b <;> exact this
      | same h1 h2 _ =>
        rw [h1, h2]
        simpa using rd.later hle

theorem Reach.pacing {env : Env} {d d1 : D Ptrs} {host : Bytes} {type cb : Nat} {a : OpOut} (h : Reach env d)
    (hn : callback d.c.log host type = none)
    (e : Mdns.step env (.query host type (some cb)) d = .ok (a, d1)) (T : Nat) : Pacing d1 host type T [] := by
  have hs : OpSafe env d.c d.q.walk (.query host type (some cb)) := trivial
  have hd := h.did hs e
  have hi1 := (h.step hs e).inv.cinv
  have hi := h.inv.cinv
  unfold Pacing
  generalize d1.c = c', d1.lists = l' at hd hi1
  cases hd with
  | query e1 _ =>
    obtain ⟨c1, e2, rg, hl⟩ := hi.queryOn host type cb
    rw [e1] at e2
    cases e2
    have : callback c'.log host type = some cb := by rw [hl, callback_append_registered, if_pos ⟨rfl, rfl⟩]
    obtain ⟨q, x, hx, e3, e4, _⟩ := (hi1.tcb host type cb).mp this
    refine ⟨q, x, hx, e3, e4, ?_⟩
    rcases rg.new q x hx with ⟨cb', h1⟩ | ⟨_, _, h1, h2, _⟩
    · have := (hi.tcb host type cb').mpr ⟨q, _, h1, e3, e4, rfl⟩
      rw [hn] at this
      cases this
    · rw [h2]
      exact ⟨fun i a b ha => (nomatch ha), .inl rfl, fun t ht => (nomatch ht)⟩

/-- **C98.** While a query is registered its question is asked in rounds of three: the second time one second after the first
or later, the third time two seconds after that, and the next round begins three seconds after that; whatever is called, and
whatever is received and cached.  The clock must not be set back. -/
theorem C98_rounds {env : Env} {d d1 d2 : D Ptrs} {host : Bytes} {type cb : Nat} {a : OpOut} {pre post : List Call}
    {evs : List Event} {T0 T : Nat} (hr : Timed env pre d T0) (hnew : callback d.c.log host type = none)
    (e : Mdns.step env (.query host type (some cb)) d = .ok (a, d1)) (n : Later env d1 T0 post d2 T)
    (hl : d2.c.log = d1.c.log ++ evs) (hreg : .unregistered host type ∉ evs) : Spaced (askTimes host type post) := by
  obtain ⟨_, _, _, _, _, rd⟩ := n.pacing (hr.reach.step (o := .query host type (some cb)) trivial e)
    (hr.reach.pacing hnew e T0) hl hreg
  exact rd.paced

theorem Spaced.third {l : List Nat} (h : Spaced l) {i a b : Nat} (ha : l[i]? = some a) (hb : l[i + 3]? = some b) : a + 6 ≤ b := by
  have hlen := (List.getElem?_eq_some_iff.mp hb).1
  have h1 := h i a _ ha (List.getElem?_eq_getElem (by omega))
  have h2 := h (i + 1) l[i + 1] l[i + 2] (List.getElem?_eq_getElem (by omega)) (List.getElem?_eq_getElem (by omega))
  have h3 := h (i + 2) _ b (List.getElem?_eq_getElem (by omega)) hb
  omega

theorem Spaced.spread {l : List Nat} (h : Spaced l) (m : Nat) : ∀ {i a b : Nat}, l[i]? = some a → l[i + 3 * m]? = some b →
    a + 6 * m ≤ b := by
  induction m with
  | zero => intro i a b ha hb; rw [show i + 3 * 0 = i by omega, ha] at hb; cases hb; omega
  | succ m ih =>
    intro i a b ha hb
    have hlen := (List.getElem?_eq_some_iff.mp hb).1
    have h1 := h.third ha (List.getElem?_eq_getElem (by omega))
    have h2 := ih (i := i + 3) (List.getElem?_eq_getElem (by omega)) (by rw [show i + 3 + 3 * m = i + 3 * (m + 1) by omega]; exact hb)
    omega

theorem Spaced.mono {l : List Nat} (h : Spaced l) : ∀ (k : Nat) {i a b : Nat}, l[i]? = some a → l[i + k]? = some b → a ≤ b := by
  intro k
  induction k with
  | zero => intro i a b ha hb; rw [show i + 0 = i from rfl, ha] at hb; cases hb; omega
  | succ k ih =>
    intro i a b ha hb
    have hlen := (List.getElem?_eq_some_iff.mp hb).1
    have h1 := ih ha (List.getElem?_eq_getElem (by omega))
    have h2 := h (i + k) _ b (List.getElem?_eq_getElem (by omega)) hb
    omega

theorem Spaced.rate {l : List Nat} (h : Spaced l) (m s : Nat) :
    (l.filter fun t => decide (s ≤ t ∧ t < s + 6 * m)).length ≤ 3 * m := by
  -- what is 3 * m after an element in the window is behind it
  have key : ∀ j : Nat, (∀ k < j, ∀ a, l[k]? = some a → a < s) → ((l.drop j).filter fun t => decide (s ≤ t ∧ t < s + 6 * m)).length ≤ 3 * m →
      (l.filter fun t => decide (s ≤ t ∧ t < s + 6 * m)).length ≤ 3 * m := by
    intro j hj hle
    have e : (l.take j).filter (fun t => decide (s ≤ t ∧ t < s + 6 * m)) = [] := by
      rw [List.filter_eq_nil_iff]
      intro a ha
      obtain ⟨k, hk, rfl⟩ := List.mem_iff_getElem.mp ha
      simp only [List.length_take] at hk
      have := hj k (by omega) _ (List.getElem?_eq_getElem (by omega))
      simp only [List.getElem_take, decide_eq_true_eq]
      omega
    calc (l.filter fun t => decide (s ≤ t ∧ t < s + 6 * m)).length
        = ((l.take j ++ l.drop j).filter fun t => decide (s ≤ t ∧ t < s + 6 * m)).length := by rw [List.take_append_drop]
      _ ≤ 3 * m := by rw [List.filter_append, e]; exact hle
  -- the first element that is not before the window
  obtain ⟨j, h1, h2⟩ : ∃ j : Nat, (∀ k < j, ∀ a, l[k]? = some a → a < s) ∧ (∀ a, l[j]? = some a → s ≤ a) := by
    have : ∀ n : Nat, (∃ j : Nat, (∀ k < j, ∀ a, l[k]? = some a → a < s) ∧ (∀ a, l[j]? = some a → s ≤ a)) ∨
        ∀ k < n, ∀ a, l[k]? = some a → a < s := by
      intro n
      induction n with
      | zero => exact .inr fun k hk => by omega
      | succ n ih =>
        rcases ih with ih | ih
        · exact .inl ih
        · by_cases hn : ∀ a, l[n]? = some a → s ≤ a
          · exact .inl ⟨n, ih, hn⟩
          · refine .inr fun k hk a ha => ?_
            by_cases hkn : k = n
            · subst hkn
              by_cases hs : s ≤ a
              · exact absurd (fun a' ha' => by rw [ha] at ha'; cases ha'; exact hs) hn
              · omega
            · exact ih k (by omega) a ha
    rcases this l.length with h | h
    · exact h
    · exact ⟨l.length, h, fun a ha => by simp at ha⟩
  refine key j h1 ?_
  have e : ((l.drop j).drop (3 * m)).filter (fun t => decide (s ≤ t ∧ t < s + 6 * m)) = [] := by
    rw [List.filter_eq_nil_iff]
    intro b hb
    rw [List.drop_drop] at hb
    obtain ⟨k, hk, rfl⟩ := List.mem_iff_getElem.mp hb
    rw [List.length_drop] at hk
    rw [List.getElem_drop]
    have ha : l[j]? = some l[j] := List.getElem?_eq_getElem (by omega)
    have hs := h2 _ ha
    have hm : l[j + 3 * m]? = some l[j + 3 * m] := List.getElem?_eq_getElem (by omega)
    have g1 := h.spread m ha hm
    have g2 := h.mono k hm (List.getElem?_eq_getElem (by omega))
    simp only [decide_eq_true_eq]
    omega
  calc ((l.drop j).filter fun t => decide (s ≤ t ∧ t < s + 6 * m)).length
      = (((l.drop j).take (3 * m) ++ (l.drop j).drop (3 * m)).filter fun t => decide (s ≤ t ∧ t < s + 6 * m)).length := by
        rw [List.take_append_drop]
    _ = (((l.drop j).take (3 * m)).filter fun t => decide (s ≤ t ∧ t < s + 6 * m)).length := by
        rw [List.filter_append, e, List.append_nil]
    _ ≤ ((l.drop j).take (3 * m)).length := List.length_filter_le ..
    _ ≤ 3 * m := by rw [List.length_take]; omega

/-- **C98 (rate).** So in any time of `6 * m` seconds the question is asked at most `3 * m` times. -/
theorem C98_rate {env : Env} {d d1 d2 : D Ptrs} {host : Bytes} {type cb : Nat} {a : OpOut} {pre post : List Call}
    {evs : List Event} {T0 T : Nat} (hr : Timed env pre d T0) (hnew : callback d.c.log host type = none)
    (e : Mdns.step env (.query host type (some cb)) d = .ok (a, d1)) (n : Later env d1 T0 post d2 T)
    (hl : d2.c.log = d1.c.log ++ evs) (hreg : .unregistered host type ∉ evs) (m s : Nat) :
    ((askTimes host type post).filter fun t => decide (s ≤ t ∧ t < s + 6 * m)).length ≤ 3 * m := by
  have hp := C98_rounds hr hnew e n hl hreg
  generalize askTimes host type post = l at hp
  exact hp.rate m s

open Sample in
/-- Someone answers again and again with a lifetime of two seconds, so that the question is asked all the time: in the rounds
described, although packets are made every second. -/
example : ∃ a d1 d2 evs post, Timed quiet [] fresh 100 ∧ callback fresh.c.log (nm 97) 12 = none ∧
    Mdns.step quiet (.query (nm 97) 12 (some 7)) fresh = .ok (a, d1) ∧ Later quiet d1 100 post d2 113 ∧
    d2.c.log = d1.c.log ++ evs ∧ .unregistered (nm 97) 12 ∉ evs ∧
    askTimes (nm 97) 12 post = [100, 101, 103, 107, 108, 110] := by
  let ops : List Op := (List.range' 100 14).flatMap fun t =>
    [.send (at_ t), .recv (at_ t) { ptrMsg 10 with an := [ptrTo 98 1 2] } other]
  obtain ⟨a, e1⟩ := asking1_step
  have n : Later quiet asking1 100 (trace quiet ops asking1).1 (trace quiet ops asking1).2 113 :=
    later_in (by decide +kernel) (by decide +kernel)
  have hr1 : Reach quiet asking1 := (Reach.new ..).step (o := .query (nm 97) 12 (some 7)) trivial e1
  obtain ⟨ev, hl⟩ := n.calls.log hr1
  have hlog : Event.unregistered (nm 97) 12 ∉ (trace quiet ops asking1).2.c.log := by decide +kernel
  exact ⟨a, asking1, _, ev, _, ⟨1, 1500, at_ 100, by decide, .nil⟩, by decide +kernel, e1, n, hl,
    fun m => hlog (by rw [hl]; simp [m]), by decide +kernel⟩

end Mdns
