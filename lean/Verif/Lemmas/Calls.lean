import Verif.Lemmas.Addrs

/-!
# Changing the own address, shutting down, clearing, sleeping
-/

namespace Mdns

open M

theorem nodup_flatMap {f : Nat → List Nat} : ∀ {is : List Nat}, is.Nodup → (∀ i, (f i).Nodup) →
    (∀ i j r, r ∈ f i → r ∈ f j → i = j) → (is.flatMap f).Nodup
  | [], _, _, _ => by simp
  | i :: is, hn, h1, h2 => by
    rw [List.nodup_cons] at hn
    rw [List.flatMap_cons, List.nodup_append]
    refine ⟨h1 i, nodup_flatMap hn.2 h1 h2, ?_⟩
    rintro a ha b hb rfl
    obtain ⟨j, hj, hb⟩ := List.mem_flatMap.mp hb
    exact hn.1 (h2 i j a ha hb ▸ hj)

theorem RInv.allNodup {c : Core} {l : Lists} (h : RInv c l) : c.allPublished.Nodup := by
  refine nodup_flatMap List.nodup_range h.pnodup fun i j r hi hj => ?_
  obtain ⟨x, hx, e⟩ := h.pub i r hi
  obtain ⟨y, hy, e'⟩ := h.pub j r hj
  rw [hx] at hy
  cases hy
  exact e.symm.trans e'

theorem bucket_lt_s (n : Bytes) : bucket n sprime < sprime := bucket_lt n sprime sprime_pos

theorem RInv.mem_all {c : Core} {l : Lists} (h : RInv c l) {r : Nat} {x : Rec} (hx : c.recs r = some x) :
    r ∈ c.allPublished :=
  List.mem_flatMap.mpr ⟨_, List.mem_range.mpr (bucket_lt_s x.rr.name), h.mem r x hx⟩

/-! ### The own address -/

/-- Setting all records of a type. -/
inductive SetL (type : Nat) (a : Ip) : List Nat → Core → Lists → Core → Lists → Prop
  | nil {c : Core} {l : Lists} (h : DInv c l) : SetL type a [] c l c l
  | skip {r : Nat} {rs : List Nat} {c c' : Core} {l l' : Lists} {x : Rec} (h : DInv c l) (hx : c.recs r = some x)
      (ht : x.rr.type ≠ type) (n : SetL type a rs c l c' l') : SetL type a (r :: rs) c l c' l'
  | set {r : Nat} {rs : List Nat} {c c' : Core} {l l' : Lists} {x : Rec} (h : DInv c l) (hx : c.recs r = some x)
      (ht : x.rr.type = type) (n : SetL type a rs (setSt c l r (x.withAddr a)).c (setSt c l r (x.withAddr a)).q c' l') :
      SetL type a (r :: rs) c l c' l'

theorem SetL.inv {type : Nat} {a : Ip} {rs : List Nat} {c c' : Core} {l l' : Lists}
    (n : SetL type a rs c l c' l') : DInv c' l' := by
  induction n with
  | nil h => exact h
  | skip _ _ _ _ ih => exact ih
  | set _ _ _ _ ih => exact ih

theorem setSt_recs {c : Core} {l : Lists} {r : Nat} {x x' : Rec} (hr : SameRole x x') (s : Nat) :
    ∃ f : Rec → Rec, (setSt c l r x').c.recs s = if s = r then some (f x') else c.recs s := by
  unfold setSt publishSt
  split
  · refine ⟨fun y => { y with modified := true }, ?_⟩
    simp only [upd_upd]
    by_cases e : s = r
    · subst e
      rw [upd_same, if_pos rfl]
    · rw [upd_other _ _ _ _ e, if_neg e]
  · refine ⟨fun y => { y with modified := true, tries := 0 }, ?_⟩
    simp only [upd_upd]
    by_cases e : s = r
    · subst e
      rw [upd_same, if_pos rfl]
    · rw [upd_other _ _ _ _ e, if_neg e]

theorem setSt_isSome {c : Core} {l : Lists} {r : Nat} {x x' : Rec} (hx : c.recs r = some x) (hr : SameRole x x')
    (s : Nat) : ((setSt c l r x').c.recs s).isSome = (c.recs s).isSome := by
  obtain ⟨f, e⟩ := setSt_recs (c := c) (l := l) (r := r) hr s
  rw [e]
  split
  · rename_i e
    subst e
    rw [hx]
    rfl
  · rfl

theorem forSet_ok {type : Nat} {a : Ip} {f : Nat → M Lists Unit}
    (hf : ∀ r c l x, DInv c l → c.recs r = some x → f r ⟨c, l⟩ =
      if x.rr.type = type then .ok ((), setSt c l r (x.withAddr a)) else .ok ((), ⟨c, l⟩)) :
    ∀ (rs : List Nat) {c : Core} {l : Lists}, DInv c l → (∀ r ∈ rs, (c.recs r).isSome) →
      ∃ c' l', forRecs f rs ⟨c, l⟩ = .ok ((), ⟨c', l'⟩) ∧ SetL type a rs c l c' l'
  | [], c, l, h, _ => ⟨c, l, rfl, .nil h⟩
  | r :: rs, c, l, h, hs => by
    obtain ⟨x, hx⟩ := Option.isSome_iff_exists.mp (hs r (by simp))
    have e1 := hf r c l x h hx
    unfold forRecs
    by_cases ht : x.rr.type = type
    · rw [if_pos ht] at e1
      have hr := Rec.withAddr_role x a
      obtain ⟨c', l', e, n⟩ := forSet_ok hf rs (setSt_inv h hx hr)
        (fun s m => by rw [setSt_isSome hx hr]; exact hs s (by simp [m]))
      exact ⟨c', l', (M.bind_ok e1).trans e, .set h hx ht n⟩
    · rw [if_neg ht] at e1
      obtain ⟨c', l', e, n⟩ := forSet_ok hf rs h (fun s m => hs s (by simp [m]))
      exact ⟨c', l', (M.bind_ok e1).trans e, .skip h hx ht n⟩

/-! ### Goodbyes -/

/-- A record being withdrawn. -/
def Rec.bye (x : Rec) : Rec := { x with rr := { x.rr with ttl := 0 } }

/-- Withdrawing a record by linking it. -/
def byeSt (c : Core) (l : Lists) (r : Nat) (x : Rec) : D Lists :=
  ⟨{ c with recs := upd c.recs r (some x.bye) }, l.set .now (r :: l.q .now)⟩

theorem bye_ok {c : Core} {l : Lists} (h : RInv c l) {r : Nat} {x : Rec} (hx : c.recs r = some x)
    (hq : ∀ w, r ∉ l.q w) : bye r ⟨c, l⟩ = .ok ((), byeSt c l r x) := by
  have hl : l.live r = true := by rw [h.live, hx]; rfl
  have hnq : ¬ l.queued r = true := fun e => by
    obtain ⟨w, m⟩ := queued_iff.mp e
    exact hq w m
  unfold Mdns.bye
  rw [M.bind_ok (modRec_ok hx)]
  unfold liftQ
  simp only [QOps.linkNow]
  rw [if_pos ⟨hl, hnq⟩]
  rfl

theorem mem_set {l : Lists} {w v : W} {x : List Nat} {s : Nat} :
    s ∈ (l.set w x).q v ↔ if v = w then s ∈ x else s ∈ l.q v := by
  unfold Lists.set
  simp only
  split <;> rfl

theorem byeSt_rinv {c : Core} {l : Lists} (h : RInv c l) {r : Nat} {x : Rec} (hx : c.recs r = some x)
    (hq : ∀ w, r ∉ l.q w) : RInv (byeSt c l r x).c (byeSt c l r x).q := by
  have h1 : RInv { c with recs := upd c.recs r (some x.bye) } l := h.role hx ⟨rfl, rfl, rfl, rfl, rfl, rfl⟩
  have mem : ∀ w s, s ∈ (l.set .now (r :: l.q .now)).q w ↔ (w = .now ∧ s = r) ∨ s ∈ l.q w := by
    intro w s
    rw [mem_set]
    split
    · rename_i e
      subst e
      simp
    · rename_i e
      simp [e]
  refine h1.setQ (l' := l.set .now (r :: l.q .now)) rfl rfl ?_ ?_ ?_ ?_ ?_
  · intro w
    unfold Lists.set
    simp only
    split
    · exact List.nodup_cons.mpr ⟨hq _, h.nodup _⟩
    · exact h.nodup w
  · intro v w s hv hw
    rw [mem] at hv hw
    rcases hv with ⟨rfl, rfl⟩ | hv
    · rcases hw with ⟨rfl, _⟩ | hw
      · rfl
      · exact absurd hw (hq _)
    · rcases hw with ⟨rfl, rfl⟩ | hw
      · exact absurd hv (hq _)
      · exact h.disj v w s hv hw
  · intro w s hs
    rcases (mem w s).mp hs with ⟨_, rfl⟩ | hs
    · show (upd c.recs s (some x.bye) s).isSome = true
      rw [upd_same]
      rfl
    · exact h1.qlive w s hs
  · intro s
    rw [mem]
    simp
  · intro s y hy hs
    rcases (mem _ s).mp hs with ⟨e, _⟩ | hs
    · cases e
    · exact h1.ptries s y hy hs

theorem byeSt_inv {c : Core} {l : Lists} (h : DInv c l) {r : Nat} {x : Rec} (hx : c.recs r = some x)
    (hq : ∀ w, r ∉ l.q w) : DInv (byeSt c l r x).c (byeSt c l r x).q :=
  ⟨h.cinv.recfree rfl, byeSt_rinv h.rinv hx hq⟩

/-- Withdrawing the records of a list that satisfy `p`. -/
inductive ByeL (p : Rec → Prop) : List Nat → Core → Lists → Core → Lists → Prop
  | nil {c : Core} {l : Lists} (h : DInv c l) : ByeL p [] c l c l
  | skip {r : Nat} {rs : List Nat} {c c' : Core} {l l' : Lists} {x : Rec} (h : DInv c l) (hx : c.recs r = some x)
      (ht : ¬ p x) (n : ByeL p rs c l c' l') : ByeL p (r :: rs) c l c' l'
  | bye {r : Nat} {rs : List Nat} {c c' : Core} {l l' : Lists} {x : Rec} (h : DInv c l) (hx : c.recs r = some x)
      (ht : p x) (hq : ∀ w, r ∉ l.q w) (n : ByeL p rs (byeSt c l r x).c (byeSt c l r x).q c' l') :
      ByeL p (r :: rs) c l c' l'

theorem ByeL.inv {p : Rec → Prop} {rs : List Nat} {c c' : Core} {l l' : Lists}
    (n : ByeL p rs c l c' l') : DInv c' l' := by
  induction n with
  | nil h => exact h
  | skip _ _ _ _ ih => exact ih
  | bye _ _ _ _ _ ih => exact ih

theorem forBye_ok {p : Rec → Prop} [DecidablePred p] {f : Nat → M Lists Unit}
    (hf : ∀ r c l x, c.recs r = some x → f r ⟨c, l⟩ = if p x then bye r ⟨c, l⟩ else .ok ((), ⟨c, l⟩)) :
    ∀ (rs : List Nat) {c : Core} {l : Lists}, DInv c l → rs.Nodup → (∀ r ∈ rs, (c.recs r).isSome) →
      (∀ r ∈ rs, ∀ x, c.recs r = some x → p x → ∀ w, r ∉ l.q w) →
      ∃ c' l', forRecs f rs ⟨c, l⟩ = .ok ((), ⟨c', l'⟩) ∧ ByeL p rs c l c' l'
  | [], c, l, h, _, _, _ => ⟨c, l, rfl, .nil h⟩
  | r :: rs, c, l, h, hn, hs, hq => by
    rw [List.nodup_cons] at hn
    obtain ⟨x, hx⟩ := Option.isSome_iff_exists.mp (hs r (by simp))
    have e1 := hf r c l x hx
    unfold forRecs
    by_cases ht : p x
    · rw [if_pos ht] at e1
      have hqr := hq r (by simp) x hx ht
      rw [bye_ok h.rinv hx hqr] at e1
      have ne : ∀ s ∈ rs, s ≠ r := fun s m e => hn.1 (e ▸ m)
      obtain ⟨c', l', e, n⟩ := forBye_ok hf rs (byeSt_inv h hx hqr) hn.2
        (fun s m => by
          show (upd c.recs r (some x.bye) s).isSome = true
          rw [upd_other _ _ _ _ (ne s m)]
          exact hs s (by simp [m]))
        (fun s m y hy hp w => by
          have hy : upd c.recs r (some x.bye) s = some y := hy
          rw [upd_other _ _ _ _ (ne s m)] at hy
          have := hq s (by simp [m]) y hy hp w
          show s ∉ (l.set .now (r :: l.q .now)).q w
          rw [mem_set]
          split
          · rename_i e
            subst e
            simp [this, ne s m]
          · exact this)
      exact ⟨c', l', (M.bind_ok e1).trans e, .bye h hx ht hqr n⟩
    · rw [if_neg ht] at e1
      obtain ⟨c', l', e, n⟩ := forBye_ok hf rs h hn.2 (fun s m => hs s (by simp [m]))
        (fun s m => hq s (by simp [m]))
      exact ⟨c', l', (M.bind_ok e1).trans e, .skip h hx ht n⟩

/-- What changing the own IPv4 address does. -/
inductive Addr4 (a : Ip4) (c : Core) (l : Lists) : Core → Lists → Prop
  | same (h : c.addr = a) : Addr4 a c l c l
  | set {c' : Core} {l' : Lists} (h : c.addr ≠ a) (ha : a ≠ ip4Zero) (n : SetL 1 (.v4 a) c.allPublished c l c' l') :
      Addr4 a c l { c' with addr := a } l'
  | bye {c' : Core} {l' : Lists} (h : c.addr ≠ a) (ha : a = ip4Zero)
      (n : ByeL (fun x => x.rr.type = 1) c.allPublished c l c' l') : Addr4 a c l { c' with addr := a } l'

/-- What changing the own IPv6 address does. -/
inductive Addr6 (a : Ip6) (c : Core) (l : Lists) : Core → Lists → Prop
  | same (h : c.addr6 = a) : Addr6 a c l c l
  | set {c' : Core} {l' : Lists} (h : c.addr6 ≠ a) (ha : a ≠ ip6Zero) (n : SetL 28 (.v6 a) c.allPublished c l c' l') :
      Addr6 a c l { c' with addr6 := a } l'
  | bye {c' : Core} {l' : Lists} (h : c.addr6 ≠ a) (ha : a = ip6Zero)
      (n : ByeL (fun x => x.rr.type = 28) c.allPublished c l c' l') : Addr6 a c l { c' with addr6 := a } l'

theorem DInv.congr {c c' : Core} {l : Lists} (h : DInv c l) (e1 : c'.cache = c.cache) (e2 : c'.qs = c.qs)
    (e3 : c'.nextq = c.nextq) (e4 : c'.queries = c.queries) (e5 : c'.qlist = c.qlist) (e6 : c'.log = c.log)
    (e7 : c'.recs = c.recs) (e8 : c'.published = c.published) (e9 : c'.uanswers = c.uanswers) : DInv c' l :=
  ⟨h.cinv.congr e1 e2 e3 e4 e5 e6, h.rinv.congr e7 e8 e9⟩

theorem Addr4.inv {a : Ip4} {c c' : Core} {l l' : Lists} (n : Addr4 a c l c' l') (h : DInv c l) : DInv c' l' := by
  cases n with
  | same _ => exact h
  | set _ _ n => exact n.inv.congr rfl rfl rfl rfl rfl rfl rfl rfl rfl
  | bye _ _ n => exact n.inv.congr rfl rfl rfl rfl rfl rfl rfl rfl rfl

theorem Addr6.inv {a : Ip6} {c c' : Core} {l l' : Lists} (n : Addr6 a c l c' l') (h : DInv c l) : DInv c' l' := by
  cases n with
  | same _ => exact h
  | set _ _ n => exact n.inv.congr rfl rfl rfl rfl rfl rfl rfl rfl rfl
  | bye _ _ n => exact n.inv.congr rfl rfl rfl rfl rfl rfl rfl rfl rfl

theorem RInv.allSome {c : Core} {l : Lists} (h : RInv c l) : ∀ r ∈ c.allPublished, (c.recs r).isSome := by
  intro r m
  obtain ⟨x, hx⟩ := h.allrec r m
  rw [hx]
  rfl

theorem setAddress_ok {a : Ip4} {c : Core} {l : Lists} (h : DInv c l)
    (hq : c.addr ≠ a → a = ip4Zero → ∀ r x, c.recs r = some x → x.rr.type = 1 → ∀ w, r ∉ l.q w) :
    ∃ c' l', setAddress a ⟨c, l⟩ = .ok ((), ⟨c', l'⟩) ∧ Addr4 a c l c' l' := by
  unfold setAddress
  rw [M.bind_ok core_ok]
  by_cases he : c.addr = a
  · rw [if_pos he]
    exact ⟨c, l, rfl, .same he⟩
  · rw [if_neg he]
    by_cases ha : a = ip4Zero
    · obtain ⟨c', l', e, n⟩ := forBye_ok (p := fun x => x.rr.type = 1) (f := fun r => do
          let x ← getRec r
          if x.rr.type = 1 then (if a = ip4Zero then bye r else setIp r a) else pure ()) (by
        intro r c l x hx
        rw [M.bind_ok (getRec_ok hx)]
        rw [if_pos ha]
        split <;> rfl) c.allPublished h h.rinv.allNodup h.rinv.allSome (fun r _ x hx => hq he ha r x hx)
      exact ⟨_, _, (M.bind_ok e).trans rfl, .bye he ha n⟩
    · obtain ⟨c', l', e, n⟩ := forSet_ok (type := 1) (a := .v4 a) (f := fun r => do
          let x ← getRec r
          if x.rr.type = 1 then (if a = ip4Zero then bye r else setIp r a) else pure ()) (by
        intro r c l x h hx
        rw [M.bind_ok (getRec_ok hx)]
        rw [if_neg ha]
        split
        · exact setIp_ok h.rinv hx a
        · rfl) c.allPublished h h.rinv.allSome
      exact ⟨_, _, (M.bind_ok e).trans rfl, .set he ha n⟩

theorem setIpv6Address_ok {a : Ip6} {c : Core} {l : Lists} (h : DInv c l)
    (hq : c.addr6 ≠ a → a = ip6Zero → ∀ r x, c.recs r = some x → x.rr.type = 28 → ∀ w, r ∉ l.q w) :
    ∃ c' l', setIpv6Address a ⟨c, l⟩ = .ok ((), ⟨c', l'⟩) ∧ Addr6 a c l c' l' := by
  unfold setIpv6Address
  rw [M.bind_ok core_ok]
  by_cases he : c.addr6 = a
  · rw [if_pos he]
    exact ⟨c, l, rfl, .same he⟩
  · rw [if_neg he]
    by_cases ha : a = ip6Zero
    · obtain ⟨c', l', e, n⟩ := forBye_ok (p := fun x => x.rr.type = 28) (f := fun r => do
          let x ← getRec r
          if x.rr.type = 28 then (if a = ip6Zero then bye r else setIpv6 r a) else pure ()) (by
        intro r c l x hx
        rw [M.bind_ok (getRec_ok hx)]
        rw [if_pos ha]
        split <;> rfl) c.allPublished h h.rinv.allNodup h.rinv.allSome (fun r _ x hx => hq he ha r x hx)
      exact ⟨_, _, (M.bind_ok e).trans rfl, .bye he ha n⟩
    · obtain ⟨c', l', e, n⟩ := forSet_ok (type := 28) (a := .v6 a) (f := fun r => do
          let x ← getRec r
          if x.rr.type = 28 then (if a = ip6Zero then bye r else setIpv6 r a) else pure ()) (by
        intro r c l x h hx
        rw [M.bind_ok (getRec_ok hx)]
        rw [if_neg ha]
        split
        · exact setIpv6_ok h.rinv hx a
        · rfl) c.allPublished h h.rinv.allSome
      exact ⟨_, _, (M.bind_ok e).trans rfl, .set he ha n⟩

/-! ### Shutting down -/

/-- What shutting down does. -/
inductive Shut (c : Core) (l : Lists) : Core → Lists → Prop
  | mk {c' : Core} {l' : Lists} (n : ByeL (fun _ => True) c.allPublished c (l.set .now []) c' l') :
      Shut c l { c' with shutdown := true } l'

theorem Shut.inv {c c' : Core} {l l' : Lists} (n : Shut c l c' l') : DInv c' l' := by
  obtain ⟨n⟩ := n
  exact n.inv.congr rfl rfl rfl rfl rfl rfl rfl rfl rfl

theorem clearNow_inv {c : Core} {l : Lists} (h : RInv c l) : RInv c (l.set .now []) := by
  have mem : ∀ w s, s ∈ (l.set .now []).q w → s ∈ l.q w ∧ w ≠ .now := by
    intro w s hs
    rw [mem_set] at hs
    split at hs
    · cases hs
    · exact ⟨hs, by assumption⟩
  refine h.setQ rfl rfl ?_ (fun v w r hv hw => h.disj v w r (mem v r hv).1 (mem w r hw).1)
    (fun w r hr => h.qlive w r (mem w r hr).1) ?_ (fun r x hx hr => h.ptries r x hx (mem _ r hr).1)
  · intro w
    unfold Lists.set
    simp only
    split
    · exact List.nodup_nil
    · exact h.nodup w
  · intro r
    rw [mem_set, if_neg (by simp)]

theorem shutdown_ok {c : Core} {l : Lists} (h : DInv c l) (hq : ∀ w, w ≠ .now → l.q w = []) :
    ∃ c' l', shutdown ⟨c, l⟩ = .ok ((), ⟨c', l'⟩) ∧ Shut c l c' l' := by
  have h1 : DInv c (l.set .now []) := ⟨h.cinv, clearNow_inv h.rinv⟩
  obtain ⟨c', l', e, n⟩ := forBye_ok (p := fun _ => True) (f := bye)
    (fun r c l x hx => by rw [if_pos trivial]) c.allPublished h1 h1.rinv.allNodup h1.rinv.allSome
    (fun r _ x hx _ w => by
      rw [mem_set]
      split
      · simp
      · rename_i hw
        rw [hq w hw]
        simp)
  refine ⟨_, _, ?_, .mk n⟩
  unfold shutdown
  have e0 : (liftQ fun q => (QOps.clearNow q).bind fun q => .ok ((), q) : M Lists Unit) ⟨c, l⟩ =
    .ok ((), ⟨c, l.set .now []⟩) := rfl
  rw [M.bind_ok e0, M.bind_ok core_ok]
  exact (M.bind_ok e).trans rfl

/-! ### Clearing -/

/-- One record less, the hash chains still as before. -/
def wipe1 (d : D Lists) (r : Nat) : D Lists :=
  ⟨{ d.c with uanswers := d.c.uanswers.filter fun u => u.r != r, recs := upd d.c.recs r none },
    { d.q with q := fun w => (d.q.q w).erase r, live := fun i => if i = r then false else d.q.live i }⟩

theorem forWipe_ok : ∀ (rs : List Nat) (d : D Lists), rs.Nodup → (∀ r ∈ rs, (d.c.recs r).isSome ∧ d.q.live r = true) →
    (∀ w, (d.q.q w).Nodup) →
    forRecs (fun r => do
      rRemoveLists r none
      uRemove r
      freeRec r) rs d = .ok ((), rs.foldl wipe1 d)
  | [], _, _, _, _ => rfl
  | r :: rs, ⟨c, l⟩, hn, hs, hq => by
    rw [List.nodup_cons] at hn
    obtain ⟨h1, h2⟩ := hs r (by simp)
    obtain ⟨x, hx⟩ := Option.isSome_iff_exists.mp h1
    have e1 : (do
        rRemoveLists r none
        uRemove r
        freeRec r : M Lists Unit) ⟨c, l⟩ = .ok ((), wipe1 ⟨c, l⟩ r) := by
      rw [M.bind_ok rRemoveLists_ok]
      unfold uRemove
      rw [M.bind_ok modC_ok]
      unfold freeRec
      have hx1 : ({ c with uanswers := c.uanswers.filter fun u => u.r != r } : Core).recs r = some x := hx
      rw [M.bind_ok (getRec_ok hx1), M.bind_ok modC_ok]
      refine (free_ok (l := { l with q := fun w => if (none : Option W) = some w then l.q w else (l.q w).erase r })
        h2 ?_).trans ?_
      · intro w
        show r ∉ if (none : Option W) = some w then l.q w else (l.q w).erase r
        rw [if_neg (by simp)]
        exact (hq w).not_mem_erase
      · unfold wipe1
        simp
    unfold forRecs
    rw [M.bind_ok e1]
    refine forWipe_ok rs _ hn.2 (fun s m => ?_) (fun w => (hq w).erase r)
    have ne : s ≠ r := fun e => hn.1 (e ▸ m)
    obtain ⟨h3, h4⟩ := hs s (by simp [m])
    refine ⟨?_, ?_⟩
    · show (upd c.recs r none s).isSome = true
      rw [upd_other _ _ _ _ ne]
      exact h3
    · show (if s = r then false else l.live s) = true
      rw [if_neg ne]
      exact h4

/-- What is left after all that. -/
theorem wipe_spec : ∀ (rs : List Nat) (d : D Lists), (∀ w, (d.q.q w).Nodup) →
    (∀ s, (rs.foldl wipe1 d).c.recs s = if s ∈ rs then none else d.c.recs s) ∧
    (∀ s, (rs.foldl wipe1 d).q.live s = if s ∈ rs then false else d.q.live s) ∧
    (∀ w, (rs.foldl wipe1 d).q.q w = (d.q.q w).filter fun s => !rs.contains s) ∧
    (rs.foldl wipe1 d).c.uanswers = (d.c.uanswers.filter fun u => !rs.contains u.r) ∧
    (rs.foldl wipe1 d).q.size = d.q.size ∧
    (rs.foldl wipe1 d).c.published = d.c.published ∧
    (rs.foldl wipe1 d).c.recfree = d.c.recfree
  | [], d, _ => by
    refine ⟨fun s => by simp, fun s => by simp, fun w => ?_, ?_, rfl, rfl, rfl⟩ <;>
      · symm
        exact List.filter_eq_self.mpr fun _ _ => rfl
  | r :: rs, d, hq => by
    obtain ⟨h1, h2, h3, h4, h5, h6, h7⟩ := wipe_spec rs (wipe1 d r) (fun w => (hq w).erase r)
    rw [List.foldl_cons]
    refine ⟨?_, ?_, ?_, ?_, h5, h6, h7⟩
    · intro s
      rw [h1]
      show (if s ∈ rs then none else upd d.c.recs r none s) = _
      by_cases e : s = r
      · subst e
        simp
      · rw [upd_other _ _ _ _ e]
        simp [e]
    · intro s
      rw [h2]
      show (if s ∈ rs then false else if s = r then false else d.q.live s) = _
      by_cases e : s = r
      · subst e
        simp
      · simp [e]
    · intro w
      rw [h3]
      show ((d.q.q w).erase r).filter _ = _
      rw [(hq w).erase_eq_filter, List.filter_filter]
      refine List.filter_congr fun s _ => ?_
      by_cases e : s = r
      · subst e
        simp
      · simp [e]
    · rw [h4]
      show (d.c.uanswers.filter fun u => u.r != r).filter _ = _
      rw [List.filter_filter]
      refine List.filter_congr fun u _ => ?_
      by_cases e : u.r = r
      · simp [e]
      · simp [e]

theorem wipe_timers : ∀ (rs : List Nat) (d : D Lists), (rs.foldl wipe1 d).c.probe = d.c.probe ∧
    (rs.foldl wipe1 d).c.publish = d.c.publish ∧ (rs.foldl wipe1 d).c.pause = d.c.pause
  | [], _ => ⟨rfl, rfl, rfl⟩
  | r :: rs, d => wipe_timers rs (wipe1 d r)

/-- Nothing published, queued or pending. -/
structure NoRecs (c : Core) (l : Lists) : Prop where
  recs : ∀ r, c.recs r = none
  published : ∀ i, c.published i = []
  uanswers : c.uanswers = []
  queues : ∀ w, l.q w = []

theorem clear_ok {c : Core} {l : Lists} (h : DInv c l) :
    ∃ c' l', recordsClear ⟨c, l⟩ = .ok ((), ⟨c', l'⟩) ∧ NoRecs c' l' ∧ c'.recfree = c.recfree ∧ DInv c' l' ∧
      l'.size = l.size ∧ c'.probe = c.probe ∧ c'.publish = c.publish ∧ c'.pause = c.pause := by
  have e := forWipe_ok c.allPublished ⟨c, l⟩ h.rinv.allNodup
    (fun r m => ⟨h.rinv.allSome r m, by rw [h.rinv.live]; exact h.rinv.allSome r m⟩) h.rinv.nodup
  obtain ⟨h1, h2, h3, h4, h5, h6, h7⟩ := wipe_spec c.allPublished ⟨c, l⟩ h.rinv.nodup
  have h8 := wipe_timers c.allPublished ⟨c, l⟩
  generalize c.allPublished.foldl wipe1 ⟨c, l⟩ = d at e h1 h2 h3 h4 h5 h6 h7 h8
  obtain ⟨c1, l1⟩ := d
  have live_all : ∀ r, (c.recs r).isSome → r ∈ c.allPublished := by
    intro r hr
    obtain ⟨x, hx⟩ := Option.isSome_iff_exists.mp hr
    exact h.rinv.mem_all hx
  have r0 : ∀ r, c1.recs r = none := by
    intro r
    have := h1 r
    rw [this]
    split
    · rfl
    · rename_i hr
      cases hh : c.recs r with
      | none => rfl
      | some x => exact absurd (h.rinv.mem_all hh) hr
  have q0 : ∀ w, l1.q w = [] := by
    intro w
    have := h3 w
    rw [this, List.filter_eq_nil_iff]
    intro s hs
    simp [live_all s (h.rinv.qlive w s hs)]
  have u0 : c1.uanswers = [] := by
    rw [h4, List.filter_eq_nil_iff]
    intro u hu
    simp [live_all u.r (h.rinv.uans u hu)]
  have p0 : ∀ i, (if i < sprime then [] else c1.published i) = [] := by
    intro i
    split
    · rfl
    · rename_i hi
      rw [h6]
      cases hh : c.published i with
      | nil => rfl
      | cons r rs =>
        obtain ⟨x, _, hb⟩ := h.rinv.pub i r (by rw [hh]; simp)
        exact absurd (hb ▸ bucket_lt_s x.rr.name) hi
  refine ⟨{ c1 with published := fun i => if i < sprime then [] else c1.published i }, l1, ?_, ⟨r0, p0, u0, q0⟩, h7,
    ⟨?_, ?_⟩, h5, h8⟩
  · unfold recordsClear
    rw [M.bind_ok core_ok, M.bind_ok e]
    rfl
  · exact h.cinv.recfree h7
  · constructor
    · intro w; rw [q0]; exact List.nodup_nil
    · intro v w r hv; rw [q0] at hv; cases hv
    · intro w r hr; rw [q0] at hr; cases hr
    · intro r hr
      have hr : (c1.recs r).isSome = true := hr
      rw [r0] at hr
      cases hr
    · intro r
      show l1.live r = (c1.recs r).isSome
      rw [r0]
      have := h2 r
      rw [this]
      split
      · rfl
      · rename_i hr
        show l.live r = false
        rw [h.rinv.live]
        cases hh : c.recs r with
        | none => rfl
        | some x => exact absurd (h.rinv.mem_all hh) hr
    · intro i r hr
      have hr : r ∈ (if i < sprime then [] else c1.published i) := hr
      rw [p0] at hr
      cases hr
    · intro r x hx
      have hx : c1.recs r = some x := hx
      rw [r0] at hx; cases hx
    · intro i
      show (if i < sprime then [] else c1.published i).Nodup
      rw [p0]; exact List.nodup_nil
    · intro r x hx
      have hx : c1.recs r = some x := hx
      rw [r0] at hx; cases hx
    · intro r x hx
      have hx : c1.recs r = some x := hx
      rw [r0] at hx; cases hx
    · intro r x hx
      have hx : c1.recs r = some x := hx
      rw [r0] at hx; cases hx
    · intro r x hx
      have hx : c1.recs r = some x := hx
      rw [r0] at hx; cases hx
    · intro r x hx
      have hx : c1.recs r = some x := hx
      rw [r0] at hx; cases hx
    · intro u hu
      have hu : u ∈ c1.uanswers := hu
      rw [u0] at hu; cases hu

/-! ### Sleeping -/

/-- Seconds until a record expires at the receivers. -/
def Core.left (c : Core) (x : Rec) : Int := (x.lastSent.sec : Int) + x.rr.ttl - c.now.sec

/-- Does the loop over the published records queue a record? -/
def Core.stale (c : Core) (is : List Nat) (r : Nat) : Prop :=
  ∃ i ∈ is, (c.published i).head? = some r ∧ ∃ x, c.recs r = some x ∧ c.left x ≤ 2

/-- Only the pause queue may have records. -/
def OnlyPause (l : Lists) : Prop := ∀ w, w ≠ .pause → l.q w = []

theorem pushPause_inv {c : Core} {l : Lists} (h : RInv c l) (hq : OnlyPause l) {r : Nat} {x : Rec}
    (hx : c.recs r = some x) : rPush .pause r ⟨c, l⟩ = .ok ((), ⟨c, l.moveTo .pause r⟩) ∧ RInv c (l.moveTo .pause r) ∧
      OnlyPause (l.moveTo .pause r) := by
  have hl : l.live r = true := by rw [h.live, hx]; rfl
  have hu : ¬ (x.unique ≠ 0 ∧ x.unique < 5) := fun hu => by
    have := (h.probing r x hx).mpr hu
    rw [hq .probing (by simp)] at this
    cases this
  refine ⟨?_, h.moveTo hx hu (by simp) (by simp), ?_⟩
  · rw [rPush_ok hl (fun v hv => by rw [hq v hv]; simp)]
    congr 3
    unfold Lists.moveTo Lists.set
    split
    · rename_i hc
      have : l.q = fun v => if v = W.pause then l.q W.pause else (l.q v).erase r := by
        funext v
        split
        · rename_i e
          subst e
          rfl
        · rename_i e
          rw [hq v e]
          rfl
      rw [← this]
    · rename_i hc
      congr 1
      funext v
      split
      · rfl
      · rename_i e
        rw [hq v e]
        rfl
  · intro w hw
    unfold Lists.moveTo
    simp only [if_neg hw]
    rw [hq w hw]
    rfl

theorem republish_ok {c : Core} : ∀ (is : List Nat) (expire : Int) {l : Lists}, RInv c l → OnlyPause l →
    ∃ e l', republish c is expire ⟨c, l⟩ = .ok (e, ⟨c, l'⟩) ∧ RInv c l' ∧ OnlyPause l' ∧
      (∀ s, s ∈ l'.q .pause ↔ s ∈ l.q .pause ∨ c.stale is s) ∧
      e ≤ expire ∧ (∀ i ∈ is, ∀ r x, (c.published i).head? = some r → c.recs r = some x → e ≤ c.left x) ∧
      (e = expire ∨ ∃ i ∈ is, ∃ r x, (c.published i).head? = some r ∧ c.recs r = some x ∧ e = c.left x) ∧
      l'.size = l.size
  | [], expire, l, h, hq => by
    refine ⟨expire, l, rfl, h, hq, fun s => ?_, Int.le_refl _, (fun i m => by cases m), .inl rfl, rfl⟩
    simp [Core.stale]
  | i :: is, expire, l, h, hq => by
    unfold republish
    cases hh : (c.published i).head? with
    | none =>
      obtain ⟨e, l', e1, h1, h2, h3, h4, h5, h6, h7⟩ := republish_ok is expire h hq
      refine ⟨e, l', e1, h1, h2, fun s => ?_, h4, ?_, ?_, h7⟩
      · rw [h3]
        simp [Core.stale, hh]
      · intro j hj r x hr hx
        rcases List.mem_cons.mp hj with rfl | hj
        · rw [hh] at hr
          cases hr
        · exact h5 j hj r x hr hx
      · rcases h6 with h6 | ⟨j, hj, h6⟩
        · exact .inl h6
        · exact .inr ⟨j, by simp [hj], h6⟩
    | some r =>
      obtain ⟨x, hx⟩ := h.pubrec i r (List.mem_of_head? hh)
      have key : ∃ l1, (do
          let x ← getRec r
          let next : Int := (x.lastSent.sec : Int) + x.rr.ttl - c.now.sec
          if next ≤ 2 then rPush .pause r
          republish c is (if next < expire then next else expire) : M Lists Int) ⟨c, l⟩ =
          republish c is (if c.left x < expire then c.left x else expire) ⟨c, l1⟩ ∧ RInv c l1 ∧ OnlyPause l1 ∧
          (∀ s, s ∈ l1.q .pause ↔ s ∈ l.q .pause ∨ (s = r ∧ c.left x ≤ 2)) ∧ l1.size = l.size := by
        rw [M.bind_ok (getRec_ok hx)]
        by_cases hn : c.left x ≤ 2
        · obtain ⟨p1, p2, p3⟩ := pushPause_inv h hq hx
          refine ⟨_, ?_, p2, p3, fun s => ?_, rfl⟩
          · dsimp only
            rw [if_pos (show (x.lastSent.sec : Int) + x.rr.ttl - c.now.sec ≤ 2 from hn)]
            exact M.bind_ok p1
          · rw [mem_moveTo h]
            by_cases e : s = r
            · simp [e, hn]
            · simp [e]
        · refine ⟨l, ?_, h, hq, fun s => ?_, rfl⟩
          · dsimp only
            rw [if_neg (show ¬ (x.lastSent.sec : Int) + x.rr.ttl - c.now.sec ≤ 2 from hn)]
            rfl
          · simp [hn]
      obtain ⟨l1, e0, i1, i2, i3, i4⟩ := key
      obtain ⟨e, l', e1, h1, h2, h3, h4, h5, h6, h7⟩ :=
        republish_ok is (if c.left x < expire then c.left x else expire) i1 i2
      refine ⟨e, l', e0.trans e1, h1, h2, fun s => ?_, ?_, ?_, ?_, h7.trans i4⟩
      · rw [h3, i3]
        constructor
        · rintro ((hs | ⟨rfl, hs⟩) | ⟨j, hj, hs⟩)
          · exact .inl hs
          · exact .inr ⟨i, by simp, hh, x, hx, hs⟩
          · exact .inr ⟨j, by simp [hj], hs⟩
        · rintro (hs | ⟨j, hj, hs⟩)
          · exact .inl (.inl hs)
          · rcases List.mem_cons.mp hj with rfl | hj
            · obtain ⟨hs1, y, hy, hs2⟩ := hs
              rw [hh] at hs1
              cases hs1
              rw [hx] at hy
              cases hy
              exact .inl (.inr ⟨rfl, hs2⟩)
            · exact .inr ⟨j, hj, hs⟩
      · split at h4 <;> omega
      · intro j hj r' x' hr hx'
        rcases List.mem_cons.mp hj with rfl | hj
        · rw [hh] at hr
          cases hr
          rw [hx] at hx'
          cases hx'
          split at h4 <;> omega
        · exact h5 j hj r' x' hr hx'
      · rcases h6 with h6 | ⟨j, hj, h6⟩
        · split at h6
          · exact .inr ⟨i, by simp, r, x, hh, hx, h6⟩
          · exact .inl h6
        · exact .inr ⟨j, by simp [hj], h6⟩

/-- The time returned for a wanted time. -/
def rounded (t : TV) : TV := normTv (t.usec / 1000000 + 1) t

/-- The core while sleeping. -/
def Core.awake (c : Core) (now : TV) : Core := { c with sleep := {}, now := now }

/-- What `mdnsd_sleep` does. -/
inductive SleepR (now : TV) (c : Core) (l : Lists) : TV → Core → Lists → Prop
  | busy (h : c.uanswers ≠ [] ∨ l.q .now ≠ []) : SleepR now c l {} { c with sleep := {} } l
  | pause (h : c.uanswers = [] ∧ l.q .now = []) (h1 : l.q .pause ≠ []) :
      SleepR now c l (rounded ⟨0, (tvdiff now c.pause).toNat⟩)
        { c.awake now with sleep := rounded ⟨0, (tvdiff now c.pause).toNat⟩ } l
  | probing (h : c.uanswers = [] ∧ l.q .now = []) (h1 : l.q .pause = []) (h2 : l.q .probing ≠ []) :
      SleepR now c l (rounded ⟨0, (tvdiff now c.probe).toNat⟩)
        { c.awake now with sleep := rounded ⟨0, (tvdiff now c.probe).toNat⟩ } l
  | publish (h : c.uanswers = [] ∧ l.q .now = []) (h1 : l.q .pause = []) (h2 : l.q .probing = [])
      (h3 : l.q .publish ≠ []) : SleepR now c l (rounded ⟨0, (tvdiff now c.publish).toNat⟩)
        { c.awake now with sleep := rounded ⟨0, (tvdiff now c.publish).toNat⟩ } l
  | query (h : c.uanswers = [] ∧ l.q .now = []) (h1 : l.q .pause = []) (h2 : l.q .probing = [])
      (h3 : l.q .publish = []) (h4 : c.checkqlist ≠ 0) : SleepR now c l (rounded ⟨c.checkqlist - now.sec, 0⟩)
        { c.awake now with sleep := rounded ⟨c.checkqlist - now.sec, 0⟩ } l
  | gc (h : c.uanswers = [] ∧ l.q .now = []) (h1 : l.q .pause = []) (h2 : l.q .probing = [])
      (h3 : l.q .publish = []) (h4 : c.checkqlist = 0) (h5 : (c.expireall : Int) - now.sec < 0) :
      SleepR now c l (rounded ⟨0, 0⟩) { c.awake now with sleep := rounded ⟨0, 0⟩ } l
  | idle {e : Int} {l' : Lists} (h : c.uanswers = [] ∧ l.q .now = []) (h1 : l.q .pause = []) (h2 : l.q .probing = [])
      (h3 : l.q .publish = []) (h4 : c.checkqlist = 0) (h5 : ¬ (c.expireall : Int) - now.sec < 0)
      (i : RInv (c.awake now) l') (o : OnlyPause l')
      (hp : ∀ s, s ∈ l'.q .pause ↔ (c.awake now).stale (List.range sprime) s)
      (he : e ≤ (c.expireall : Int) - now.sec)
      (hh : ∀ i ∈ List.range sprime, ∀ r x, (c.published i).head? = some r → c.recs r = some x →
        e ≤ (c.awake now).left x)
      (hex : e = (c.expireall : Int) - now.sec ∨ ∃ i ∈ List.range sprime, ∃ r x, (c.published i).head? = some r ∧
        c.recs r = some x ∧ e = (c.awake now).left x) (hz : l'.size = l.size) :
      SleepR now c l (rounded ⟨if e > 2 then (e - 2).toNat else 0, 0⟩)
        { c.awake now with
          pause := ⟨now.sec + (if e > 2 then (e - 2).toNat else 0), c.pause.usec⟩
          sleep := rounded ⟨if e > 2 then (e - 2).toNat else 0, 0⟩ } l'

theorem SleepR.inv {now : TV} {c c' : Core} {l l' : Lists} {t : TV} (n : SleepR now c l t c' l') (h : DInv c l) :
    DInv c' l' := by
  cases n with
  | idle _ _ _ _ _ _ i _ _ _ _ _ _ => exact ⟨h.cinv.congr rfl rfl rfl rfl rfl rfl, i.congr rfl rfl rfl⟩
  | _ => exact h.congr rfl rfl rfl rfl rfl rfl rfl rfl rfl

theorem qHead_none {c : Core} {l : Lists} {w : W} (h : l.q w = []) : qHead w ⟨c, l⟩ = .ok (none, ⟨c, l⟩) := by
  have := qHead_ok (c := c) (l := l) (w := w)
  rw [h] at this
  exact this

theorem sleep_ok {now : TV} {c : Core} {l : Lists} (h : DInv c l) :
    ∃ t c' l', sleep now ⟨c, l⟩ = .ok (t, ⟨c', l'⟩) ∧ SleepR now c l t c' l' := by
  unfold sleep
  rw [M.bind_ok modC_ok, M.bind_ok core_ok, M.bind_ok qHead_ok]
  by_cases hb : c.uanswers ≠ [] ∨ l.q .now ≠ []
  · refine ⟨_, _, _, ?_, .busy hb⟩
    rw [if_pos (show c.uanswers ≠ [] ∨ (l.q .now).head? ≠ none by rw [head_ne_none]; exact hb)]
    rfl
  · have hb' : c.uanswers = [] ∧ l.q .now = [] := by
      constructor
      · exact Decidable.byContradiction fun e => hb (.inl e)
      · exact Decidable.byContradiction fun e => hb (.inr e)
    rw [if_neg (show ¬ (c.uanswers ≠ [] ∨ (l.q .now).head? ≠ none) by rw [head_ne_none]; exact hb),
      M.bind_ok modC_ok, M.bind_ok core_ok, M.bind_ok qHead_ok]
    by_cases h1 : l.q .pause = []
    · rw [if_neg (by rw [head_ne_none]; exact fun e => e h1), M.bind_ok qHead_ok]
      by_cases h2 : l.q .probing = []
      · rw [if_neg (by rw [head_ne_none]; exact fun e => e h2), M.bind_ok qHead_ok]
        by_cases h3 : l.q .publish = []
        · rw [if_neg (by rw [head_ne_none]; exact fun e => e h3)]
          by_cases h4 : c.checkqlist = 0
          · rw [if_neg (fun e : c.checkqlist ≠ 0 => e h4)]
            by_cases h5 : (c.expireall : Int) - now.sec < 0
            · refine ⟨_, _, _, ?_, .gc hb' h1 h2 h3 h4 h5⟩
              dsimp only
              rw [if_pos h5]
              rfl
            · dsimp only
              rw [if_neg h5]
              have hi : RInv (c.awake now) l := h.rinv.congr rfl rfl rfl
              have ho : OnlyPause l := by
                intro w hw
                cases w with
                | now => exact hb'.2
                | pause => exact absurd rfl hw
                | probing => exact h2
                | publish => exact h3
              obtain ⟨e, l', e1, i1, i2, i3, i4, i5, i6⟩ :=
                republish_ok (List.range sprime) ((c.expireall : Int) - now.sec) hi ho
              refine ⟨_, _, l', ?_, .idle hb' h1 h2 h3 h4 h5 i1 i2 (fun s => by rw [i3, h1]; simp) i4 i5 i6.1 i6.2⟩
              refine (M.bind_ok e1).trans ?_
              rw [M.bind_ok modC_ok]
              rfl
          · refine ⟨_, _, _, ?_, .query hb' h1 h2 h3 h4⟩
            rw [if_pos (show c.checkqlist ≠ 0 from h4)]
            rfl
        · refine ⟨_, _, _, ?_, .publish hb' h1 h2 h3⟩
          rw [if_pos (by rw [head_ne_none]; exact h3)]
          rfl
      · refine ⟨_, _, _, ?_, .probing hb' h1 h2⟩
        rw [if_pos (by rw [head_ne_none]; exact h2)]
        rfl
    · refine ⟨_, _, _, ?_, .pause hb' h1⟩
      rw [if_pos (by rw [head_ne_none]; exact h1)]
      rfl

end Mdns
