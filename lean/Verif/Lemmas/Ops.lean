import Verif.Lemmas.InMsg

/-!
# What the other calls do
-/

namespace Mdns

open M

/-! ### New records -/

/-- Room for a new record, queued for probing or not. -/
def Lists.fresh (l : Lists) (probe : Bool) : Lists where
  q := fun w => if probe = true ∧ w = .probing then l.size :: l.q w else l.q w
  live := fun i => if i = l.size then true else l.live i
  size := l.size + 1

/-- A new record. -/
def Core.publishRec (c : Core) (r : Nat) (x : Rec) : Core :=
  { c with
    recs := upd c.recs r (some x)
    published := upd c.published (bucket x.rr.name sprime) (r :: c.published (bucket x.rr.name sprime)) }

theorem mem_fresh {l : Lists} {b : Bool} {w : W} {s : Nat} :
    s ∈ (l.fresh b).q w ↔ (b = true ∧ w = .probing ∧ s = l.size) ∨ s ∈ l.q w := by
  unfold Lists.fresh
  simp only
  split
  · rename_i hb
    simp [hb]
  · rename_i hb
    constructor
    · exact .inr
    · rintro (⟨h1, h2, _⟩ | h)
      · exact absurd ⟨h1, h2⟩ hb
      · exact h

theorem RInv.fresh {c : Core} {l : Lists} (h : RInv c l) (x : Rec) (hu : x.unique = 0 ∨ x.unique = 1)
    (hc : x.unique ≠ 0 → x.conflict.isSome) (ht : x.tries = 0) :
    RInv (c.publishRec l.size x) (l.fresh (x.unique != 0)) := by
  have none : c.recs l.size = none := by
    cases hh : c.recs l.size with
    | none => rfl
    | some y => exact absurd (h.bound l.size (by rw [hh]; rfl)) (by omega)
  have nq : ∀ w, l.size ∉ l.q w := fun w m => by
    have := h.qlive w _ m
    rw [none] at this
    cases this
  have np : ∀ i, l.size ∉ c.published i := fun i m => by
    obtain ⟨y, hy, _⟩ := h.pub i _ m
    rw [none] at hy
    cases hy
  have cases' : ∀ s y, upd c.recs l.size (some x) s = some y → (s = l.size ∧ y = x) ∨ (s ≠ l.size ∧ c.recs s = some y) := by
    intro s y hy
    by_cases e : s = l.size
    · subst e
      rw [upd_same] at hy
      cases hy
      exact .inl ⟨rfl, rfl⟩
    · rw [upd_other _ _ _ _ e] at hy
      exact .inr ⟨e, hy⟩
  have some' : ∀ s, (c.recs s).isSome → (upd c.recs l.size (some x) s).isSome := by
    intro s hs
    by_cases e : s = l.size
    · subst e
      rw [upd_same]
      rfl
    · rw [upd_other _ _ _ _ e]
      exact hs
  constructor
  · intro w
    unfold Lists.fresh
    simp only
    split
    · exact List.nodup_cons.mpr ⟨nq w, h.nodup w⟩
    · exact h.nodup w
  · intro v w r hv hw
    rw [mem_fresh] at hv hw
    rcases hv with ⟨_, rfl, rfl⟩ | hv
    · rcases hw with ⟨_, rfl, _⟩ | hw
      · rfl
      · exact absurd hw (nq _)
    · rcases hw with ⟨_, rfl, rfl⟩ | hw
      · exact absurd hv (nq _)
      · exact h.disj v w r hv hw
  · intro w r hr
    rcases mem_fresh.mp hr with ⟨_, _, rfl⟩ | hr
    · show (upd c.recs l.size (some x) l.size).isSome = true
      rw [upd_same]
      rfl
    · exact some' r (h.qlive w r hr)
  · intro r hr
    show r < l.size + 1
    by_cases e : r = l.size
    · omega
    · have hr : (upd c.recs l.size (some x) r).isSome = true := hr
      rw [upd_other _ _ _ _ e] at hr
      have := h.bound r hr
      omega
  · intro r
    show (if r = l.size then true else l.live r) = (upd c.recs l.size (some x) r).isSome
    by_cases e : r = l.size
    · subst e
      rw [upd_same, if_pos rfl]
      rfl
    · rw [upd_other _ _ _ _ e, if_neg e]
      exact h.live r
  · intro i r hr
    have hr : r ∈ upd c.published (bucket x.rr.name sprime) (l.size :: c.published (bucket x.rr.name sprime)) i := hr
    have old : r ∈ c.published i → ∃ y, upd c.recs l.size (some x) r = some y ∧ bucket y.rr.name sprime = i := by
      intro m
      obtain ⟨y, hy, hb⟩ := h.pub i r m
      have e : r ≠ l.size := fun e => np i (e ▸ m)
      exact ⟨y, by rw [upd_other _ _ _ _ e]; exact hy, hb⟩
    by_cases e : i = bucket x.rr.name sprime
    · subst e
      rw [upd_same] at hr
      rcases List.mem_cons.mp hr with rfl | hr
      · exact ⟨x, upd_same .., rfl⟩
      · exact old hr
    · rw [upd_other _ _ _ _ e] at hr
      exact old hr
  · intro r y hy
    show r ∈ upd c.published (bucket x.rr.name sprime) (l.size :: c.published (bucket x.rr.name sprime)) _
    rcases cases' r y hy with ⟨rfl, rfl⟩ | ⟨e, hy⟩
    · rw [upd_same]
      simp
    · have := h.mem r y hy
      by_cases e : bucket y.rr.name sprime = bucket x.rr.name sprime
      · rw [e, upd_same]
        rw [e] at this
        simp [this]
      · rw [upd_other _ _ _ _ e]
        exact this
  · intro i
    show (upd c.published (bucket x.rr.name sprime) (l.size :: c.published (bucket x.rr.name sprime)) i).Nodup
    by_cases e : i = bucket x.rr.name sprime
    · subst e
      rw [upd_same]
      exact List.nodup_cons.mpr ⟨np _, h.pnodup _⟩
    · rw [upd_other _ _ _ _ e]
      exact h.pnodup i
  · intro r y hy
    rw [mem_fresh]
    rcases cases' r y hy with ⟨rfl, rfl⟩ | ⟨e, hy⟩
    · rcases hu with hu | hu
      · simp [hu, nq]
      · simp [hu]
    · rw [← h.probing r y hy]
      simp [e]
  · intro r y hy
    rcases cases' r y hy with ⟨rfl, rfl⟩ | ⟨e, hy⟩
    · omega
    · exact h.le5 r y hy
  · intro r y hy
    rcases cases' r y hy with ⟨rfl, rfl⟩ | ⟨e, hy⟩
    · exact fun _ => ht
    · exact h.tries r y hy
  · intro r y hy
    rcases cases' r y hy with ⟨rfl, rfl⟩ | ⟨e, hy⟩
    · exact hc
    · exact h.conf r y hy
  · intro r y hy hr
    rcases cases' r y hy with ⟨rfl, rfl⟩ | ⟨e, hy⟩
    · omega
    · rcases mem_fresh.mp hr with ⟨_, hw, _⟩ | hr
      · cases hw
      · exact h.ptries r y hy hr
  · intro u hu
    exact some' _ (h.uans u hu)

/-- The record `mdnsd_shared` makes. -/
def sharedRec (host : Bytes) (type ttl : Nat) : Rec := { rr := { name := host, type := type, ttl := ttl } }

theorem shared_ok {c : Core} {l : Lists} (host : Bytes) (type ttl : Nat) :
    shared host type ttl ⟨c, l⟩ = .ok (l.size, ⟨c.publishRec l.size (sharedRec host type ttl), l.fresh false⟩) := rfl

/-- The record `mdnsd_unique` makes. -/
def uniqueRec (host : Bytes) (type ttl : Nat) (cf : Option Nat) : Rec :=
  { rr := { name := host, type := type, ttl := ttl }, conflict := cf, unique := 1 }

theorem RInv.absent {c : Core} {l : Lists} (h : RInv c l) : c.recs l.size = none ∧ ∀ w, l.size ∉ l.q w := by
  have none : c.recs l.size = none := by
    cases hh : c.recs l.size with
    | none => rfl
    | some y => exact absurd (h.bound l.size (by rw [hh]; rfl)) (by omega)
  refine ⟨none, fun w m => ?_⟩
  have := h.qlive w _ m
  rw [none] at this
  cases this

theorem unique_ok {c : Core} {l : Lists} (h : RInv c l) (host : Bytes) (type ttl : Nat) (cf : Option Nat) :
    unique host type ttl cf ⟨c, l⟩ = .ok (l.size,
      ⟨{ c.publishRec l.size (uniqueRec host type ttl cf) with probe := c.now }, l.fresh true⟩) := by
  have nq := h.absent.2
  unfold unique
  rw [M.bind_ok (shared_ok host type ttl)]
  have hx : (c.publishRec l.size (sharedRec host type ttl)).recs l.size = some (sharedRec host type ttl) := upd_same ..
  rw [M.bind_ok (modRec_ok hx), M.bind_ok rRemoveLists_ok]
  have hq : (fun w => if some W.probing = some w then (l.fresh false).q w else ((l.fresh false).q w).erase l.size) =
      l.q := by
    funext w
    have : (l.fresh false).q w = l.q w := by unfold Lists.fresh; simp
    rw [this]
    split
    · rfl
    · exact erase_absent (nq w)
  have e1 := rPush_ok (c := { c.publishRec l.size (sharedRec host type ttl) with
      recs := upd (c.publishRec l.size (sharedRec host type ttl)).recs l.size
        (some { sharedRec host type ttl with conflict := cf, unique := 1 }) })
    (l := { l.fresh false with q := fun w => if some W.probing = some w then (l.fresh false).q w
      else ((l.fresh false).q w).erase l.size }) (w := .probing) (r := l.size)
    (by show (if l.size = l.size then true else _) = true; rw [if_pos rfl])
    (by intro v _; show l.size ∉ (fun w => _) v; rw [hq]; exact nq v)
  rw [M.bind_ok e1, M.bind_ok modC_ok]
  have hcon : ((fun w => if some W.probing = some w then (l.fresh false).q w
      else ((l.fresh false).q w).erase l.size) W.probing).contains l.size = false := by
    rw [hq]
    simpa using nq .probing
  show Res.ok (_, _) = _
  congr 2
  congr 1
  · unfold Core.publishRec
    simp only [upd_upd]
    rfl
  · rw [if_neg (by rw [hcon]; simp)]
    unfold Lists.set Lists.fresh
    congr 1
    funext w
    by_cases e : w = .probing
    · subst e
      simp
    · have := nq w
      have e' : ¬ W.probing = w := fun h => e h.symm
      simp [e, e', erase_absent this]

/-! ### Setting data -/

/-- After storing data in a record and announcing it. -/
def setSt (c : Core) (l : Lists) (r : Nat) (x' : Rec) : D Lists :=
  publishSt { c with recs := upd c.recs r (some x') } l r x'

/-- Same record, other data. -/
structure SameRole (x x' : Rec) : Prop where
  name : x'.rr.name = x.rr.name
  type : x'.rr.type = x.rr.type
  unique : x'.unique = x.unique
  conflict : x'.conflict = x.conflict
  tries : x'.tries = x.tries
  sent : x'.lastSent = x.lastSent

theorem RInv.role {c : Core} {l : Lists} (h : RInv c l) {r : Nat} {x x' : Rec} (hx : c.recs r = some x)
    (hr : SameRole x x') : RInv { c with recs := upd c.recs r (some x') } l :=
  h.setRec hx hr.name hr.unique (fun hu => by rw [hr.conflict]; exact h.conf r x hx hu)
    (fun hu => by rw [hr.tries]; exact h.tries r x hx hu) (fun hp => by rw [hr.tries]; exact h.ptries r x hx hp)

theorem RInv.setSt {c : Core} {l : Lists} (h : RInv c l) {r : Nat} {x x' : Rec} (hx : c.recs r = some x)
    (hr : SameRole x x') : RInv (setSt c l r x').c (setSt c l r x').q :=
  (h.role hx hr).publishSt (upd_same ..)

theorem set_ok {c : Core} {l : Lists} (h : RInv c l) {r : Nat} {x : Rec} (hx : c.recs r = some x) (f : Rec → Rec)
    (hr : SameRole x (f x)) : (do modRec r f; rPublish r : M Lists Unit) ⟨c, l⟩ = .ok ((), setSt c l r (f x)) := by
  rw [M.bind_ok (modRec_ok hx)]
  exact rPublish_ok (h.role hx hr) (upd_same ..)

theorem setRaw_ok {c : Core} {l : Lists} (h : RInv c l) {r : Nat} {x : Rec} (hx : c.recs r = some x) (d : Bytes) :
    setRaw r d ⟨c, l⟩ = .ok ((), setSt c l r { x with rr := { x.rr with rdata := some d } }) :=
  set_ok h hx _ ⟨rfl, rfl, rfl, rfl, rfl, rfl⟩

theorem setHost_ok {c : Core} {l : Lists} (h : RInv c l) {r : Nat} {x : Rec} (hx : c.recs r = some x) (n : Bytes) :
    setHost r n ⟨c, l⟩ = .ok ((), setSt c l r { x with rr := { x.rr with rdname := some n } }) :=
  set_ok h hx _ ⟨rfl, rfl, rfl, rfl, rfl, rfl⟩

theorem setIp_ok {c : Core} {l : Lists} (h : RInv c l) {r : Nat} {x : Rec} (hx : c.recs r = some x) (a : Ip4) :
    setIp r a ⟨c, l⟩ = .ok ((), setSt c l r { x with rr := { x.rr with ip := a } }) :=
  set_ok h hx _ ⟨rfl, rfl, rfl, rfl, rfl, rfl⟩

theorem setIpv6_ok {c : Core} {l : Lists} (h : RInv c l) {r : Nat} {x : Rec} (hx : c.recs r = some x) (a : Ip6) :
    setIpv6 r a ⟨c, l⟩ = .ok ((), setSt c l r { x with rr := { x.rr with ip6 := a } }) :=
  set_ok h hx _ ⟨rfl, rfl, rfl, rfl, rfl, rfl⟩

theorem setSrv_ok {c : Core} {l : Lists} (h : RInv c l) {r : Nat} {x : Rec} (hx : c.recs r = some x) (p w o : Nat)
    (n : Bytes) : setSrv r p w o n ⟨c, l⟩ = .ok ((), setSt c l r
      { x with rr := { x.rr with priority := p, weight := w, port := o, rdname := some n } }) := by
  unfold setSrv
  rw [M.bind_ok (modRec_ok hx)]
  have hr : SameRole x { x with rr := { x.rr with priority := p, weight := w, port := o } } := ⟨rfl, rfl, rfl, rfl, rfl, rfl⟩
  rw [setHost_ok (h.role hx hr) (upd_same ..)]
  unfold setSt
  simp only [upd_upd]

theorem publishSt_recfree (c : Core) (l : Lists) (r : Nat) (x : Rec) : (publishSt c l r x).c.recfree = c.recfree := by
  unfold publishSt
  split <;> rfl

theorem setSt_recfree (c : Core) (l : Lists) (r : Nat) (x : Rec) : (setSt c l r x).c.recfree = c.recfree := by
  unfold setSt
  rw [publishSt_recfree]
  rfl

theorem setSt_inv {c : Core} {l : Lists} (h : DInv c l) {r : Nat} {x x' : Rec} (hx : c.recs r = some x)
    (hr : SameRole x x') : DInv (setSt c l r x').c (setSt c l r x').q :=
  ⟨h.cinv.recfree (setSt_recfree _ _ _ _), h.rinv.setSt hx hr⟩

theorem doneSt_inv {c : Core} {l : Lists} (h : DInv c l) {r : Nat} {x : Rec} (hx : c.recs r = some x) :
    DInv (doneSt c l r x).c (doneSt c l r x).q :=
  ⟨h.cinv.recfree (doneSt_recfree _ _ _ _), h.rinv.doneSt hx⟩

theorem shared_inv {c : Core} {l : Lists} (h : DInv c l) (host : Bytes) (type ttl : Nat) :
    DInv (c.publishRec l.size (sharedRec host type ttl)) (l.fresh false) :=
  ⟨h.cinv.recfree rfl, h.rinv.fresh (sharedRec host type ttl) (.inl rfl) (fun e => absurd rfl e) rfl⟩

theorem unique_inv {c : Core} {l : Lists} (h : DInv c l) (host : Bytes) (type ttl : Nat) (cf : Nat) :
    DInv { c.publishRec l.size (uniqueRec host type ttl (some cf)) with probe := c.now } (l.fresh true) := by
  have i := h.rinv.fresh (uniqueRec host type ttl (some cf)) (.inr rfl) (fun _ => rfl) rfl
  exact ⟨h.cinv.recfree rfl, i.congr rfl rfl rfl⟩

end Mdns
