import Verif.Lemmas.Sim
import Verif.Lemmas.CacheIn

/-!
# Invariant of records and queues, effect of the operations on records

On the four separate lists.
-/

namespace Mdns

open M

/-- The invariant of records and queues. -/
structure RInv (c : Core) (l : Lists) : Prop where
  nodup : ∀ w, (l.q w).Nodup
  disj : ∀ v w r, r ∈ l.q v → r ∈ l.q w → v = w
  qlive : ∀ w r, r ∈ l.q w → (c.recs r).isSome
  bound : ∀ r, (c.recs r).isSome → r < l.size
  live : ∀ r, l.live r = (c.recs r).isSome
  pub : ∀ i r, r ∈ c.published i → ∃ x, c.recs r = some x ∧ bucket x.rr.name sprime = i
  mem : ∀ r x, c.recs r = some x → r ∈ c.published (bucket x.rr.name sprime)
  pnodup : ∀ i, (c.published i).Nodup
  probing : ∀ r x, c.recs r = some x → (r ∈ l.q .probing ↔ x.unique ≠ 0 ∧ x.unique < 5)
  le5 : ∀ r x, c.recs r = some x → x.unique ≤ 5
  tries : ∀ r x, c.recs r = some x → x.unique ≠ 0 ∧ x.unique < 5 → x.tries = 0
  conf : ∀ r x, c.recs r = some x → x.unique ≠ 0 → x.conflict.isSome
  ptries : ∀ r x, c.recs r = some x → r ∈ l.q .publish → x.tries < 4
  uans : ∀ u ∈ c.uanswers, (c.recs u.r).isSome

namespace RInv

variable {c c' : Core} {l : Lists}

theorem congr (h : RInv c l) (e1 : c'.recs = c.recs) (e2 : c'.published = c.published)
    (e3 : c'.uanswers = c.uanswers) : RInv c' l := by
  constructor <;> (try rw [e1]) <;> (try rw [e2]) <;> (try rw [e3])
  · exact h.nodup
  · exact h.disj
  · exact h.qlive
  · exact h.bound
  · exact h.live
  · exact h.pub
  · exact h.mem
  · exact h.pnodup
  · exact h.probing
  · exact h.le5
  · exact h.tries
  · exact h.conf
  · exact h.ptries
  · exact h.uans

theorem length_le (h : RInv c l) (w : W) : (l.q w).length ≤ l.size :=
  nodup_bound _ _ (h.nodup w) fun r m => h.bound r (h.qlive w r m)

theorem chain_le (h : RInv c l) (i : Nat) : (c.published i).length ≤ l.size :=
  nodup_bound _ _ (h.pnodup i) fun r m => by
    obtain ⟨x, hx, _⟩ := h.pub i r m
    exact h.bound r (by rw [hx]; rfl)

theorem qrec (h : RInv c l) {w : W} {r : Nat} (m : r ∈ l.q w) : ∃ x, c.recs r = some x :=
  Option.isSome_iff_exists.mp (h.qlive w r m)

/-- Change a record. -/
theorem setRec (h : RInv c l) {r : Nat} {x x' : Rec} (hx : c.recs r = some x) (hn : x'.rr.name = x.rr.name)
    (hu : x'.unique = x.unique) (hc : x.unique ≠ 0 → x'.conflict.isSome)
    (ht : x.unique ≠ 0 ∧ x.unique < 5 → x'.tries = 0) (hp : r ∈ l.q .publish → x'.tries < 4) :
    RInv { c with recs := upd c.recs r (some x') } l := by
  have some_iff : ∀ s, (upd c.recs r (some x') s).isSome = (c.recs s).isSome := by
    intro s
    by_cases e : s = r
    · subst e; simp [hx]
    · rw [upd_other _ _ _ _ e]
  have cases' : ∀ s y, upd c.recs r (some x') s = some y → (s = r ∧ y = x') ∨ (s ≠ r ∧ c.recs s = some y) := by
    intro s y hy
    by_cases e : s = r
    · subst e
      rw [upd_same] at hy
      cases hy
      exact .inl ⟨rfl, rfl⟩
    · rw [upd_other _ _ _ _ e] at hy
      exact .inr ⟨e, hy⟩
  constructor
  · exact h.nodup
  · exact h.disj
  · intro w s m
    show (upd c.recs r (some x') s).isSome
    rw [some_iff]
    exact h.qlive w s m
  · intro s hs
    exact h.bound s (by rw [← some_iff]; exact hs)
  · intro s
    show l.live s = (upd c.recs r (some x') s).isSome
    rw [some_iff]
    exact h.live s
  · intro i s m
    obtain ⟨y, hy, hb⟩ := h.pub i s m
    by_cases e : s = r
    · subst e
      rw [hx] at hy
      cases hy
      exact ⟨x', upd_same .., by rw [hn]; exact hb⟩
    · exact ⟨y, by show upd c.recs r (some x') s = _; rw [upd_other _ _ _ _ e]; exact hy, hb⟩
  · intro s y hy
    rcases cases' s y hy with ⟨rfl, rfl⟩ | ⟨_, hy⟩
    · rw [hn]
      exact h.mem _ _ hx
    · exact h.mem _ _ hy
  · exact h.pnodup
  · intro s y hy
    rcases cases' s y hy with ⟨rfl, rfl⟩ | ⟨_, hy⟩
    · rw [hu]
      exact h.probing _ _ hx
    · exact h.probing _ _ hy
  · intro s y hy
    rcases cases' s y hy with ⟨rfl, rfl⟩ | ⟨_, hy⟩
    · rw [hu]
      exact h.le5 _ _ hx
    · exact h.le5 _ _ hy
  · intro s y hy
    rcases cases' s y hy with ⟨rfl, rfl⟩ | ⟨_, hy⟩
    · rw [hu]
      exact ht
    · exact h.tries _ _ hy
  · intro s y hy
    rcases cases' s y hy with ⟨rfl, rfl⟩ | ⟨_, hy⟩
    · rw [hu]
      exact hc
    · exact h.conf _ _ hy
  · intro s y hy
    rcases cases' s y hy with ⟨rfl, rfl⟩ | ⟨_, hy⟩
    · exact hp
    · exact h.ptries _ _ hy
  · intro u m
    show (upd c.recs r (some x') u.r).isSome
    rw [some_iff]
    exact h.uans u m

/-- Other queues with the same or fewer records, or records that may be there. -/
theorem setQ (h : RInv c l) {l' : Lists} (hs : l'.size = l.size) (hl : l'.live = l.live)
    (hn : ∀ w, (l'.q w).Nodup) (hd : ∀ v w r, r ∈ l'.q v → r ∈ l'.q w → v = w)
    (hq : ∀ w r, r ∈ l'.q w → (c.recs r).isSome) (hp : ∀ r, r ∈ l'.q .probing ↔ r ∈ l.q .probing)
    (ht : ∀ r x, c.recs r = some x → r ∈ l'.q .publish → x.tries < 4) : RInv c l' where
  nodup := hn
  disj := hd
  qlive := hq
  bound r hr := by rw [hs]; exact h.bound r hr
  live r := by rw [hl]; exact h.live r
  pub := h.pub
  mem := h.mem
  pnodup := h.pnodup
  probing r x hx := by rw [hp]; exact h.probing r x hx
  le5 := h.le5
  tries := h.tries
  conf := h.conf
  ptries := ht
  uans := h.uans

end RInv

/-- Move a record to a queue, out of the others. -/
def Lists.moveTo (l : Lists) (w : W) (r : Nat) : Lists :=
  { l with q := fun v => if v = w then (if (l.q w).contains r then l.q w else r :: l.q w) else (l.q v).erase r }

/-- The queue without its first record. -/
def Lists.tl (l : Lists) (w : W) : Lists := l.set w (l.q w).tail

theorem elsewhere_iff {l : Lists} {w : W} {r : Nat} : l.elsewhere w r = true ↔ ∃ v, v ≠ w ∧ r ∈ l.q v := by
  simp only [Lists.elsewhere, List.any_cons, List.any_nil, Bool.or_false, Bool.or_eq_true, Bool.and_eq_true, bne_iff_ne,
    ne_eq, List.contains_iff_mem]
  constructor
  · rintro (h | h | h | h)
    · exact ⟨_, h⟩
    · exact ⟨_, h⟩
    · exact ⟨_, h⟩
    · exact ⟨_, h⟩
  · rintro ⟨v, h⟩
    cases v
    · exact .inl h
    · exact .inr (.inl h)
    · exact .inr (.inr (.inl h))
    · exact .inr (.inr (.inr h))

theorem queued_iff {l : Lists} {r : Nat} : l.queued r = true ↔ ∃ v, r ∈ l.q v := by
  simp only [Lists.queued, List.any_cons, List.any_nil, Bool.or_false, Bool.or_eq_true, List.contains_iff_mem]
  constructor
  · rintro (h | h | h | h)
    · exact ⟨_, h⟩
    · exact ⟨_, h⟩
    · exact ⟨_, h⟩
    · exact ⟨_, h⟩
  · rintro ⟨v, h⟩
    cases v
    · exact .inl h
    · exact .inr (.inl h)
    · exact .inr (.inr (.inl h))
    · exact .inr (.inr (.inr h))

theorem mem_moveTo {c : Core} {l : Lists} (h : RInv c l) {w v : W} {r s : Nat} :
    s ∈ (l.moveTo w r).q v ↔ (s = r ∧ v = w) ∨ (s ≠ r ∧ s ∈ l.q v) := by
  unfold Lists.moveTo
  simp only
  split
  · rename_i hv
    subst hv
    split
    · rename_i hc
      have hc : r ∈ l.q v := by simpa using hc
      by_cases e : s = r
      · subst e; simp [hc]
      · simp [e]
    · rename_i hc
      have hc : r ∉ l.q v := by simpa using hc
      by_cases e : s = r
      · subst e; simp
      · simp [e]
  · rename_i hv
    rw [(h.nodup v).mem_erase_iff]
    simp [hv]

theorem RInv.moveTo {c : Core} {l : Lists} (h : RInv c l) {w : W} {r : Nat} {x : Rec} (hx : c.recs r = some x)
    (hu : ¬ (x.unique ≠ 0 ∧ x.unique < 5)) (hw : w ≠ .probing) (ht : w = .publish → x.tries < 4) :
    RInv c (l.moveTo w r) := by
  have hp : r ∉ l.q .probing := fun m => hu ((h.probing r x hx).mp m)
  refine h.setQ rfl rfl (fun v => ?_) ?_ ?_ ?_ ?_
  · unfold Lists.moveTo
    simp only
    split
    · split
      · exact h.nodup w
      · rename_i hc
        exact List.nodup_cons.mpr ⟨by simpa using hc, h.nodup w⟩
    · exact (h.nodup v).erase _
  · intro v v' s m m'
    rw [mem_moveTo h] at m m'
    rcases m with ⟨rfl, rfl⟩ | ⟨e, m⟩ <;> rcases m' with ⟨e', rfl⟩ | ⟨e', m'⟩
    · rfl
    · exact absurd rfl e'
    · exact absurd e' e
    · exact h.disj _ _ _ m m'
  · intro v s m
    rw [mem_moveTo h] at m
    rcases m with ⟨rfl, rfl⟩ | ⟨_, m⟩
    · rw [hx]; rfl
    · exact h.qlive _ _ m
  · intro s
    rw [mem_moveTo h]
    constructor
    · rintro (⟨_, e⟩ | ⟨_, m⟩)
      · exact absurd e.symm hw
      · exact m
    · intro m
      exact .inr ⟨fun e => hp (e ▸ m), m⟩
  · intro s y hy m
    rw [mem_moveTo h] at m
    rcases m with ⟨rfl, e⟩ | ⟨_, m⟩
    · rw [hx] at hy
      cases hy
      exact ht e.symm
    · exact h.ptries s y hy m

theorem mem_tl {c : Core} {l : Lists} (h : RInv c l) {w v : W} {r s : Nat} {rest : List Nat} (hq : l.q w = r :: rest) :
    s ∈ (l.tl w).q v ↔ s ≠ r ∧ s ∈ l.q v := by
  unfold Lists.tl Lists.set
  simp only
  have hr : r ∈ l.q w := by rw [hq]; simp
  split
  · rename_i hv
    subst hv
    have hn := h.nodup v
    rw [hq] at hn ⊢
    rw [List.tail_cons]
    have := (List.nodup_cons.mp hn).1
    constructor
    · intro m
      exact ⟨fun e => this (e ▸ m), by simp [m]⟩
    · rintro ⟨e, m⟩
      rcases List.mem_cons.mp m with m | m
      · exact absurd m e
      · exact m
  · rename_i hv
    constructor
    · intro m
      exact ⟨fun e => hv (h.disj _ _ _ (e ▸ m) hr), m⟩
    · exact fun m => m.2

theorem RInv.tl {c : Core} {l : Lists} (h : RInv c l) {w : W} (hw : w ≠ .probing) : RInv c (l.tl w) := by
  cases hq : l.q w with
  | nil =>
    have : l.tl w = l := by
      unfold Lists.tl Lists.set
      have : (fun v => if v = w then (l.q w).tail else l.q v) = l.q := by
        funext v
        split
        · rename_i e
          rw [e, hq]
          rfl
        · rfl
      rw [this]
    rw [this]
    exact h
  | cons r rest =>
    refine h.setQ rfl rfl (fun v => ?_) ?_ ?_ ?_ ?_
    · unfold Lists.tl Lists.set
      simp only
      split
      · exact (h.nodup w).sublist (List.tail_sublist _)
      · exact h.nodup v
    · intro v v' s m m'
      exact h.disj _ _ _ ((mem_tl h hq).mp m).2 ((mem_tl h hq).mp m').2
    · intro v s m
      exact h.qlive _ _ ((mem_tl h hq).mp m).2
    · intro s
      unfold Lists.tl Lists.set
      simp only [if_neg hw.symm]
    · intro s y hy m
      exact h.ptries s y hy ((mem_tl h hq).mp m).2

/-! ### Monad steps -/

theorem getRec_ok {Q : Type} {c : Core} {q : Q} {r : Nat} {x : Rec} (h : c.recs r = some x) :
    getRec r ⟨c, q⟩ = .ok (x, ⟨c, q⟩) := by
  unfold getRec
  simp only [h]

theorem modRec_ok {Q : Type} {c : Core} {q : Q} {r : Nat} {x : Rec} {f : Rec → Rec} (h : c.recs r = some x) :
    modRec r f ⟨c, q⟩ = .ok ((), ⟨{ c with recs := upd c.recs r (some (f x)) }, q⟩) := by
  unfold modRec
  simp only [h]

theorem modC_ok {Q : Type} {c : Core} {q : Q} {f : Core → Core} : modC f ⟨c, q⟩ = .ok ((), ⟨f c, q⟩) := rfl
theorem core_ok {Q : Type} {c : Core} {q : Q} : (core : M Q Core) ⟨c, q⟩ = .ok (c, ⟨c, q⟩) := rfl
theorem pure_ok {Q α : Type} {a : α} {d : D Q} : (pure a : M Q α) d = .ok (a, d) := rfl
theorem qHead_ok {c : Core} {l : Lists} {w : W} : qHead w ⟨c, l⟩ = .ok ((l.q w).head?, ⟨c, l⟩) := rfl
theorem qFuel_ok {c : Core} {l : Lists} : qFuel ⟨c, l⟩ = .ok (l.size, ⟨c, l⟩) := rfl

theorem liftC_ok {Q α : Type} {c c' : Core} {q : Q} {a : α} {f : Core → Res (α × Core)} (h : f c = .ok (a, c')) :
    liftC f ⟨c, q⟩ = .ok (a, ⟨c', q⟩) := by
  unfold liftC
  simp only [h]

theorem rRemoveLists_ok {c : Core} {l : Lists} {r : Nat} {skip : Option W} : rRemoveLists r skip ⟨c, l⟩ =
    .ok ((), ⟨c, { l with q := fun w => if skip = some w then l.q w else (l.q w).erase r }⟩) := rfl

theorem rPush_ok {c : Core} {l : Lists} {w : W} {r : Nat} (hl : l.live r = true) (he : ∀ v, v ≠ w → r ∉ l.q v) :
    rPush w r ⟨c, l⟩ = .ok ((), ⟨c, if (l.q w).contains r then l else l.set w (r :: l.q w)⟩) := by
  have : l.elsewhere w r = false := by
    cases hh : l.elsewhere w r with
    | false => rfl
    | true =>
      obtain ⟨v, h1, h2⟩ := elsewhere_iff.mp hh
      exact absurd h2 (he v h1)
  unfold rPush liftQ
  simp only [QOps.push, hl, this, Bool.false_eq_true, not_false_eq_true, and_self, if_true, Res.bind]

/-- Remove from the other queues and push. -/
theorem move_ok {c : Core} {l : Lists} (h : RInv c l) {w : W} {r : Nat} (hl : l.live r = true) {c' : Core} :
    (do rRemoveLists r (some w); rPush w r : M Lists Unit) ⟨c', l⟩ = .ok ((), ⟨c', l.moveTo w r⟩) := by
  rw [M.bind_ok rRemoveLists_ok]
  rw [rPush_ok (l := { l with q := fun v => if some w = some v then l.q v else (l.q v).erase r }) hl]
  · congr 3
    unfold Lists.moveTo Lists.set
    simp only [if_true]
    split
    · congr 1
      funext v
      by_cases e : v = w
      · subst e; simp
      · rw [if_neg (by simp [Ne.symm e]), if_neg e]
    · congr 1
      funext v
      by_cases e : v = w
      · subst e; simp
      · rw [if_neg e, if_neg (by simp [Ne.symm e]), if_neg e]
  · intro v hv m
    simp only [Option.some.injEq, Ne.symm hv, if_false] at m
    exact ((h.nodup v).mem_erase_iff.mp m).1 rfl

theorem free_ok {c : Core} {l : Lists} {r : Nat} (hl : l.live r = true) (hq : ∀ v, r ∉ l.q v) :
    (liftQ fun q => (QOps.free r q).bind fun q => .ok ((), q) : M Lists Unit) ⟨c, l⟩ =
      .ok ((), ⟨c, { l with live := fun i => if i = r then false else l.live i }⟩) := by
  have : l.queued r = false := by
    cases hh : l.queued r with
    | false => rfl
    | true =>
      obtain ⟨v, h2⟩ := queued_iff.mp hh
      exact absurd h2 (hq v)
  unfold liftQ
  simp only [QOps.free, hl, this, Bool.false_eq_true, not_false_eq_true, and_self, if_true, Res.bind]

/-! ### The functions -/

/-- After `_r_publish`. -/
def publishSt (c : Core) (l : Lists) (r : Nat) (x : Rec) : D Lists :=
  if x.unique ≠ 0 ∧ x.unique < 5 then ⟨{ c with recs := upd c.recs r (some { x with modified := true }) }, l⟩
  else ⟨{ c with recs := upd c.recs r (some { x with modified := true, tries := 0 }), publish := c.now },
    l.moveTo .publish r⟩

theorem rPublish_ok {c : Core} {l : Lists} (h : RInv c l) {r : Nat} {x : Rec} (hx : c.recs r = some x) :
    rPublish r ⟨c, l⟩ = .ok ((), publishSt c l r x) := by
  have hl : l.live r = true := by rw [h.live, hx]; rfl
  unfold rPublish publishSt
  rw [M.bind_ok (modRec_ok hx), M.bind_ok (getRec_ok (x := { x with modified := true }) (upd_same ..))]
  dsimp only
  split
  · rfl
  · rw [M.bind_ok (modRec_ok (x := { x with modified := true }) (upd_same ..)), M.bind_ok modC_ok, move_ok h hl, upd_upd]

theorem RInv.publishSt {c : Core} {l : Lists} (h : RInv c l) {r : Nat} {x : Rec} (hx : c.recs r = some x) :
    RInv (publishSt c l r x).c (publishSt c l r x).q := by
  unfold Mdns.publishSt
  split
  · exact h.setRec hx rfl rfl (h.conf r x hx) (h.tries r x hx) (h.ptries r x hx)
  · rename_i hu
    have h1 : RInv { c with recs := upd c.recs r (some { x with modified := true, tries := 0 }) } l :=
      h.setRec hx rfl rfl (h.conf r x hx) (fun _ => rfl) (fun _ => by simp)
    exact (h1.moveTo (w := .publish) (upd_same ..) hu (by simp) (fun _ => by simp)).congr rfl rfl rfl

/-- After `_r_send`. -/
def sendSt (c : Core) (l : Lists) (r : Nat) (x : Rec) : D Lists :=
  if x.tries < 4 then ⟨{ c with publish := c.now }, l⟩
  else if x.unique ≠ 0 then ⟨c, l.moveTo .now r⟩
  else ⟨{ c with pause := ⟨c.now.sec, c.now.usec + c.now.usec % 100 + 20⟩ }, l.moveTo .pause r⟩

theorem rSend_ok {c : Core} {l : Lists} (h : RInv c l) {r : Nat} {x : Rec} (hx : c.recs r = some x) :
    rSend r ⟨c, l⟩ = .ok ((), sendSt c l r x) := by
  have hl : l.live r = true := by rw [h.live, hx]; rfl
  unfold rSend sendSt
  rw [M.bind_ok (getRec_ok hx)]
  split
  · rfl
  · split
    · rw [move_ok h hl]
    · rw [M.bind_ok modC_ok, move_ok h hl]

theorem RInv.sendSt {c : Core} {l : Lists} (h : RInv c l) {r : Nat} {x : Rec} (hx : c.recs r = some x) :
    RInv (sendSt c l r x).c (sendSt c l r x).q := by
  have hu : ¬ x.tries < 4 → ¬ (x.unique ≠ 0 ∧ x.unique < 5) := by
    intro ht hu
    have := h.tries r x hx hu
    omega
  unfold Mdns.sendSt
  split
  · exact h.congr rfl rfl rfl
  · rename_i ht
    split
    · exact h.moveTo hx (hu ht) (by simp) (by simp)
    · exact (h.moveTo hx (hu ht) (by simp) (by simp)).congr rfl rfl rfl

/-- The core without a record. -/
def Core.dropRec (c : Core) (r : Nat) (x : Rec) : Core :=
  { c with
    recs := upd c.recs r none
    published := upd c.published (bucket x.rr.name sprime) ((c.published (bucket x.rr.name sprime)).erase r)
    uanswers := c.uanswers.filter fun u => u.r != r }

/-- A freed record. -/
def Lists.dead (l : Lists) (r : Nat) : Lists := { l with live := fun i => if i = r then false else l.live i }

theorem rDone_ok {c : Core} {l : Lists} {r : Nat} {x : Rec} (hx : c.recs r = some x)
    (hl : l.live r = true) (hq : ∀ v, r ∉ l.q v) : rDone r ⟨c, l⟩ = .ok ((), ⟨c.dropRec r x, l.dead r⟩) := by
  unfold rDone
  rw [M.bind_ok (getRec_ok hx), M.bind_ok modC_ok]
  unfold uRemove
  rw [M.bind_ok modC_ok]
  unfold freeRec
  rw [M.bind_ok (getRec_ok (x := x) (by exact hx : Core.recs _ r = some x)), M.bind_ok modC_ok, free_ok hl hq]
  rfl

/-- Removing a record that is in no queue; `h` is the invariant except that the record may
still be marked as being probed. -/
theorem RInv.drop {c : Core} {l l' : Lists} (h : RInv c l) {r : Nat} {x : Rec} (hx : c.recs r = some x)
    (hs : l'.size = l.size) (hl : ∀ s, s ≠ r → l'.live s = l.live s) (hr : l'.live r = false)
    (hn : ∀ w, (l'.q w).Nodup) (hm : ∀ w s, s ∈ l'.q w ↔ s ≠ r ∧ s ∈ l.q w) : RInv (c.dropRec r x) l' := by
  have cases' : ∀ s y, upd c.recs r none s = some y → s ≠ r ∧ c.recs s = some y := by
    intro s y hy
    by_cases e : s = r
    · subst e
      rw [upd_same] at hy
      cases hy
    · rw [upd_other _ _ _ _ e] at hy
      exact ⟨e, hy⟩
  have keep : ∀ s, s ≠ r → (c.dropRec r x).recs s = c.recs s := fun s e => upd_other _ _ _ _ e
  have hpub : ∀ i s, s ∈ (c.dropRec r x).published i ↔ s ≠ r ∧ s ∈ c.published i := by
    intro i s
    unfold Core.dropRec
    simp only [upd]
    split
    · rename_i hi
      rw [(h.pnodup _).mem_erase_iff, hi]
    · rename_i hi
      constructor
      · intro m
        refine ⟨?_, m⟩
        rintro rfl
        obtain ⟨y, hy, hb⟩ := h.pub i s m
        rw [hx] at hy
        cases hy
        exact hi hb.symm
      · exact fun m => m.2
  constructor
  · exact hn
  · intro v w s m m'
    exact h.disj v w s ((hm v s).mp m).2 ((hm w s).mp m').2
  · intro w s m
    obtain ⟨e, m⟩ := (hm w s).mp m
    rw [keep s e]
    exact h.qlive w s m
  · intro s hs'
    obtain ⟨y, hy⟩ := Option.isSome_iff_exists.mp hs'
    obtain ⟨_, hy⟩ := cases' s y hy
    rw [hs]
    exact h.bound s (by rw [hy]; rfl)
  · intro s
    by_cases e : s = r
    · subst e
      rw [hr]
      unfold Core.dropRec
      simp
    · rw [hl s e, keep s e]
      exact h.live s
  · intro i s m
    obtain ⟨e, m⟩ := (hpub i s).mp m
    rw [keep s e]
    exact h.pub i s m
  · intro s y hy
    obtain ⟨e, hy⟩ := cases' s y hy
    rw [hpub]
    exact ⟨e, h.mem s y hy⟩
  · intro i
    unfold Core.dropRec
    simp only [upd]
    split
    · exact (h.pnodup _).erase _
    · exact h.pnodup i
  · intro s y hy
    obtain ⟨e, hy⟩ := cases' s y hy
    rw [hm, h.probing s y hy]
    exact ⟨fun m => m.2, fun m => ⟨e, m⟩⟩
  · intro s y hy
    exact h.le5 s y (cases' s y hy).2
  · intro s y hy
    exact h.tries s y (cases' s y hy).2
  · intro s y hy
    exact h.conf s y (cases' s y hy).2
  · intro s y hy m
    exact h.ptries s y (cases' s y hy).2 ((hm _ s).mp m).2
  · intro u m
    obtain ⟨m, e⟩ := List.mem_filter.mp m
    rw [keep u.r (by simpa using e)]
    exact h.uans u m

/-- After `mdnsd_done`. -/
def doneSt (c : Core) (l : Lists) (r : Nat) (x : Rec) : D Lists :=
  if x.unique ≠ 0 ∧ x.unique < 5 then
    ⟨c.dropRec r x, (l.set .probing ((l.q .probing).erase r)).dead r⟩
  else sendSt { c with recs := upd c.recs r (some { x with rr := { x.rr with ttl := 0 } }) } l r
    { x with rr := { x.rr with ttl := 0 } }

theorem done_ok {c : Core} {l : Lists} (h : RInv c l) {r : Nat} {x : Rec} (hx : c.recs r = some x) :
    done r ⟨c, l⟩ = .ok ((), doneSt c l r x) := by
  have hl : l.live r = true := by rw [h.live, hx]; rfl
  unfold done doneSt
  rw [M.bind_ok (getRec_ok hx)]
  split
  · rename_i hu
    have hp : r ∈ l.q .probing := (h.probing r x hx).mpr hu
    have hz : (liftQ fun q => (QOps.zapProbing r q).bind fun q => .ok ((), q) : M Lists Unit) ⟨c, l⟩ =
        .ok ((), ⟨c, l.set .probing ((l.q .probing).erase r)⟩) := by
      unfold liftQ
      simp only [QOps.zapProbing, List.contains_iff_mem.mpr hp, if_true, Res.bind]
    rw [M.bind_ok hz, rDone_ok (l := l.set .probing ((l.q .probing).erase r)) hx hl]
    intro v m
    unfold Lists.set at m
    simp only at m
    split at m
    · exact ((h.nodup _).mem_erase_iff.mp m).1 rfl
    · rename_i hv
      exact hv (h.disj _ _ _ m hp)
  · rw [M.bind_ok (modRec_ok hx)]
    exact rSend_ok (h.setRec (x' := { x with rr := { x.rr with ttl := 0 } }) hx rfl rfl (h.conf r x hx) (h.tries r x hx)
      (h.ptries r x hx)) (upd_same ..)

theorem RInv.doneSt {c : Core} {l : Lists} (h : RInv c l) {r : Nat} {x : Rec} (hx : c.recs r = some x) :
    RInv (doneSt c l r x).c (doneSt c l r x).q := by
  unfold Mdns.doneSt
  split
  · rename_i hu
    have hp : r ∈ l.q .probing := (h.probing r x hx).mpr hu
    refine h.drop hx rfl (fun s e => ?_) ?_ ?_ ?_
    · simp only [Lists.dead, Lists.set, if_neg e]
    · simp only [Lists.dead, if_true]
    · intro w
      simp only [Lists.dead, Lists.set]
      split
      · exact (h.nodup _).erase _
      · exact h.nodup w
    · intro w s
      simp only [Lists.dead, Lists.set]
      split
      · rename_i hw
        rw [(h.nodup _).mem_erase_iff, hw]
      · rename_i hw
        constructor
        · intro m
          exact ⟨fun e => hw (h.disj _ _ _ (e ▸ m) hp), m⟩
        · exact fun m => m.2
  · have h1 : RInv { c with recs := upd c.recs r (some { x with rr := { x.rr with ttl := 0 } }) } l :=
      h.setRec hx rfl rfl (h.conf r x hx) (h.tries r x hx) (h.ptries r x hx)
    exact h1.sendSt (upd_same ..)

end Mdns
