import Verif.Model.XhtHeap
import Verif.Props.XhtAlloc

/-!
# C119: the nodes of the string table
-/

namespace Mdns.Xht

/-- The cells from a pointer on, and the nodes in them. -/
inductive Links (cells : Nat → Option HNode) : Option Nat → List Nat → List Node → Prop
  | nil : Links cells none [] []
  | cons {c : Nat} {h : HNode} {cs : List Nat} {ns : List Node} (e : cells c = some h) (t : Links cells h.next cs ns) :
      Links cells (some c) (c :: cs) (h.node :: ns)

theorem Links.frame {cells : Nat → Option HNode} {p : Option Nat} {cs : List Nat} {ns : List Node}
    (h : Links cells p cs ns) {c : Nat} (hc : c ∉ cs) (v : Option HNode) : Links (upd cells c v) p cs ns := by
  induction h with
  | nil => exact .nil
  | @cons d h cs ns e t ih =>
    rw [List.mem_cons, not_or] at hc
    refine .cons ?_ (ih hc.2)
    unfold upd
    rw [if_neg (Ne.symm hc.1)]
    exact e

theorem Links.seek {cells : Nat → Option HNode} {p : Option Nat} {cs : List Nat} {ns : List Node}
    (h : Links cells p cs ns) (q : Node → Bool) : ∀ f, cs.length ≤ f →
    (seek q cells f p = .ok none ∧ ns.findIdx? q = none) ∨
    ∃ j c, seek q cells f p = .ok (some c) ∧ ns.findIdx? q = some j ∧ cs[j]? = some c := by
  induction h with
  | nil => exact fun f _ => .inl ⟨by cases f <;> rfl, rfl⟩
  | @cons c h cs ns e t ih =>
    intro f hf
    cases f with
    | zero => simp at hf
    | succ f =>
      unfold Xht.seek
      rw [e, List.findIdx?_cons]
      dsimp only
      cases hq : q h.node with
      | true => exact .inr ⟨0, c, rfl, rfl, rfl⟩
      | false =>
        rcases ih f (by simpa using hf) with ⟨h1, h2⟩ | ⟨j, d, h1, h2, h3⟩
        · exact .inl ⟨h1, by rw [h2]; rfl⟩
        · exact .inr ⟨j + 1, d, h1, by rw [h2]; rfl, h3⟩

theorem Links.length {cells : Nat → Option HNode} {p : Option Nat} {cs : List Nat} {ns : List Node}
    (h : Links cells p cs ns) : cs.length = ns.length := by
  induction h with
  | nil => rfl
  | cons _ _ ih => simp [ih]

theorem Links.get {cells : Nat → Option HNode} {p : Option Nat} {cs : List Nat} {ns : List Node}
    (h : Links cells p cs ns) : ∀ {j c : Nat}, cs[j]? = some c → ∃ x, cells c = some x ∧ ns.getD j {} = x.node := by
  induction h with
  | nil => intro j c h; simp at h
  | @cons d h cs ns e t ih =>
    intro j c hj
    cases j with
    | zero =>
      cases hj
      exact ⟨h, e, rfl⟩
    | succ j =>
      obtain ⟨x, h1, h2⟩ := ih (j := j) (by simpa using hj)
      exact ⟨x, h1, by simpa using h2⟩

theorem Links.set {cells : Nat → Option HNode} {p : Option Nat} {cs : List Nat} {ns : List Node}
    (h : Links cells p cs ns) : ∀ {j c : Nat} {x : HNode} (y : Node), cs.Nodup → cs[j]? = some c → cells c = some x →
    Links (upd cells c (some { x with node := y })) p cs (ns.set j y) := by
  induction h with
  | nil => intro j c x y _ h; simp at h
  | @cons d h cs ns e t ih =>
    intro j c x y nd hj hx
    obtain ⟨nd1, nd2⟩ := List.nodup_cons.1 nd
    cases j with
    | zero =>
      cases hj
      rw [e] at hx
      cases hx
      exact .cons (h := { h with node := y }) (upd_same _ _ _) (t.frame nd1 _)
    | succ j =>
      have hj : cs[j]? = some c := by simpa using hj
      refine .cons (h := h) ?_ (ih y nd2 hj hx)
      unfold upd
      rw [if_neg]
      · exact e
      · rintro rfl
        exact nd1 (List.mem_of_getElem? hj)

theorem Links.chain {cells : Nat → Option HNode} {p : Option Nat} {cs : List Nat} {ns : List Node}
    (h : Links cells p cs ns) : ∀ f, cs.length ≤ f → chainH cells f p = .ok ns := by
  induction h with
  | nil => intro f _; cases f <;> rfl
  | @cons c h cs ns e t ih =>
    intro f hf
    cases f with
    | zero => simp at hf
    | succ f =>
      unfold chainH
      rw [e]
      dsimp only
      rw [ih f (by simpa using hf)]
      rfl

theorem Links.free : ∀ (cs : List Nat) {ns : List Node} {p : Option Nat} (f : Nat) (s : Freed), Links s.cells p cs ns →
    cs.Nodup → cs.length ≤ f →
    ∃ s', freeChain f p s = .ok s' ∧ s'.addrs = s.addrs ++ ns.flatMap freeNode ∧ s'.nodes = s.nodes ++ cs ∧
      ∀ c, s'.cells c = if c ∈ cs then none else s.cells c := by
  intro cs
  induction cs with
  | nil =>
    intro ns p f s h _ _
    cases h
    exact ⟨s, by cases f <;> rfl, by simp, by simp, by simp⟩
  | cons c cs ih =>
    intro ns p f s h nd hf
    obtain ⟨nd1, nd2⟩ := List.nodup_cons.1 nd
    cases h with
    | @cons _ h _ ns e t =>
      cases f with
      | zero => simp at hf
      | succ f =>
        unfold freeChain
        rw [e]
        dsimp only
        obtain ⟨s', h1, h2, h3, h4⟩ := ih f { addrs := s.addrs ++ freeNode h.node, nodes := s.nodes ++ [c], cells := upd s.cells c none }
          (t.frame nd1 none) nd2 (by simpa using hf)
        refine ⟨s', h1, by simp [h2], by simp [h3], fun d => ?_⟩
        rw [h4]
        simp only [List.mem_cons]
        by_cases hd : d ∈ cs
        · simp [hd]
        · by_cases hdc : d = c
          · subst hdc; simp [upd]
          · simp [hd, hdc, upd]

/-! ### The table -/

/-- The table in memory and the table of lists are the same; `path` are the cells of each bucket.  All cells allocated are
in a bucket, and in only one. -/
structure Same (h : HTable) (t : Table) (path : Nat → List Nat) : Prop where
  prime : h.prime = t.prime
  next : h.next = t.next
  freed : h.freed = t.freed
  links : ∀ i, ∃ ns, t.zen i = (h.heads i).node :: ns ∧ Links h.cells (h.heads i).next (path i) ns
  nodup : ∀ i, (path i).Nodup
  apart : ∀ i j c, c ∈ path i → c ∈ path j → i = j
  all : ∀ c, c < h.n ↔ ∃ i < h.prime, c ∈ path i
  inside : ∀ i c, c ∈ path i → i < h.prime

theorem Same.len {h : HTable} {t : Table} {path : Nat → List Nat} (s : Same h t path) (i : Nat) : (path i).length ≤ h.n := by
  have := List.Nodup.length_le_of_subset (s.nodup i) (l₂ := List.range h.n)
    (fun c hc => List.mem_range.2 ((s.all c).2 ⟨i, s.inside i c hc, hc⟩))
  simpa using this

/-- A search finds the node with the number that the list gives. -/
theorem Same.search {h : HTable} {t : Table} {path : Nat → List Nat} (s : Same h t path) (q : Node → Bool) (i : Nat) :
    (search q h i = .ok none ∧ (t.zen i).findIdx? q = none) ∨
    (search q h i = .ok (some (.head i)) ∧ (t.zen i).findIdx? q = some 0) ∨
    ∃ j c, search q h i = .ok (some (.cell c)) ∧ (t.zen i).findIdx? q = some (j + 1) ∧ (path i)[j]? = some c := by
  obtain ⟨ns, hz, hl⟩ := s.links i
  rw [hz, List.findIdx?_cons]
  unfold Xht.search
  cases hq : q (h.heads i).node with
  | true => exact .inr (.inl ⟨rfl, rfl⟩)
  | false =>
    simp only [Bool.false_eq_true, if_false]
    rcases hl.seek q h.n (s.len i) with ⟨h1, h2⟩ | ⟨j, c, h1, h2, h3⟩
    · exact .inl ⟨by rw [h1]; rfl, by rw [h2]; rfl⟩
    · exact .inr (.inr ⟨j, c, by rw [h1]; rfl, by rw [h2]; rfl, h3⟩)

/-- The first node of a bucket is filled. -/
theorem Same.fillHead {h : HTable} {t : Table} {path : Nat → List Nat} (s : Same h t path) (i : Nat) (x : Node) :
    ∃ h', fill h (.head i) x = .ok h' ∧ Same h' { t with
      zen := upd t.zen i ((t.zen i).set 0 x), freed := t.freed ++ freeNode ((t.zen i).getD 0 {}) } path ∧ h'.n = h.n := by
  obtain ⟨ns, hz, hl⟩ := s.links i
  refine ⟨_, rfl, ⟨s.prime, s.next, ?_, fun k => ?_, s.nodup, s.apart, s.all, s.inside⟩, rfl⟩
  · show h.freed ++ _ = t.freed ++ _
    rw [s.freed, hz]
    rfl
  · show ∃ ns, upd t.zen i _ k = (upd h.heads i _ k).node :: ns ∧ Links h.cells (upd h.heads i _ k).next (path k) ns
    by_cases hk : k = i
    · subst hk
      refine ⟨ns, ?_, ?_⟩
      · rw [upd_same, upd_same, hz]; rfl
      · rw [upd_same]; exact hl
    · unfold upd
      simp only [if_neg hk]
      exact s.links k

/-- A further node is filled. -/
theorem Same.fillCell {h : HTable} {t : Table} {path : Nat → List Nat} (s : Same h t path) (i : Nat) (x : Node) {j c : Nat}
    (hc : (path i)[j]? = some c) :
    ∃ h', fill h (.cell c) x = .ok h' ∧ Same h' { t with
      zen := upd t.zen i ((t.zen i).set (j + 1) x), freed := t.freed ++ freeNode ((t.zen i).getD (j + 1) {}) } path ∧
      h'.n = h.n := by
  obtain ⟨ns, hz, hl⟩ := s.links i
  obtain ⟨y, hy, hn⟩ := hl.get hc
  refine ⟨{ h with cells := upd h.cells c (some { y with node := x }), freed := h.freed ++ freeNode y.node }, ?_,
    ⟨s.prime, s.next, ?_, fun k => ?_, s.nodup, s.apart, s.all, s.inside⟩, rfl⟩
  · unfold fill load
    dsimp only
    rw [hy]
    rfl
  · show h.freed ++ _ = t.freed ++ _
    rw [s.freed, hz]
    simp only [List.getD_cons_succ]
    rw [hn]
  · show ∃ ns, upd t.zen i _ k = (h.heads k).node :: ns ∧ Links (upd h.cells c _) (h.heads k).next (path k) ns
    by_cases hk : k = i
    · subst hk
      refine ⟨ns.set j x, ?_, hl.set x (s.nodup k) hc hy⟩
      rw [upd_same, hz]; rfl
    · obtain ⟨ms, h1, h2⟩ := s.links k
      refine ⟨ms, ?_, h2.frame ?_ _⟩
      · unfold upd; rw [if_neg hk]; exact h1
      · exact fun m => hk (s.apart k i c m (List.mem_of_getElem? hc))

/-- A node is allocated and filled. -/
theorem Same.fillNew {h : HTable} {t : Table} {path : Nat → List Nat} (s : Same h t path) {i : Nat} (hi : i < h.prime) (x : Node) :
    ∃ h' path', fill { h with
        cells := upd h.cells h.n (some { next := (h.heads i).next })
        heads := upd h.heads i { h.heads i with next := some h.n }
        n := h.n + 1 } (.cell h.n) x = .ok h' ∧
      Same h' { t with zen := upd t.zen i ((t.zen i).take 1 ++ x :: (t.zen i).drop 1) } path' := by
  have fresh : ∀ k, h.n ∉ path k := fun k m => by
    have := (s.all h.n).2 ⟨k, s.inside k _ m, m⟩
    omega
  obtain ⟨ns, hz, hl⟩ := s.links i
  refine ⟨{ h with
      cells := upd (upd h.cells h.n (some { next := (h.heads i).next })) h.n (some { next := (h.heads i).next, node := x })
      heads := upd h.heads i { h.heads i with next := some h.n }
      n := h.n + 1
      freed := h.freed ++ freeNode {} }, upd path i (h.n :: path i), ?_, ⟨s.prime, s.next, ?_, fun k => ?_, fun k => ?_,
        fun k l c => ?_, fun c => ?_, fun k c => ?_⟩⟩
  · unfold fill load
    dsimp only
    rw [upd_same]
    rfl
  · show h.freed ++ freeNode {} = t.freed
    rw [s.freed]
    simp [freeNode]
  · show ∃ ns, upd t.zen i _ k = (upd h.heads i _ k).node :: ns ∧ Links (upd (upd h.cells h.n _) h.n _) (upd h.heads i _ k).next (upd path i _ k) ns
    by_cases hk : k = i
    · subst hk
      refine ⟨x :: ns, ?_, ?_⟩
      · rw [upd_same, upd_same, hz]; rfl
      · rw [upd_same, upd_same]
        exact .cons (h := { next := (h.heads k).next, node := x }) (upd_same _ _ _) ((hl.frame (fresh k) _).frame (fresh k) _)
    · obtain ⟨ms, h1, h2⟩ := s.links k
      have e : ∀ {α : Type} (f : Nat → α) v, upd f i v k = f k := fun f v => by unfold upd; rw [if_neg hk]
      refine ⟨ms, ?_, ?_⟩
      · rw [e, e]; exact h1
      · rw [e, e]; exact (h2.frame (fresh k) _).frame (fresh k) _
  · unfold upd
    split
    · exact List.nodup_cons.2 ⟨fresh i, s.nodup i⟩
    · exact s.nodup k
  · have key : ∀ k c, c ∈ upd path i (h.n :: path i) k → (c = h.n ∧ k = i) ∨ c ∈ path k := by
      intro k c m
      unfold upd at m
      split at m
      · rename_i hk
        rcases List.mem_cons.1 m with rfl | m
        · exact .inl ⟨rfl, hk⟩
        · exact .inr (hk ▸ m)
      · exact .inr m
    intro m1 m2
    rcases key k c m1 with ⟨e1, k1⟩ | m1 <;> rcases key l c m2 with ⟨e2, k2⟩ | m2
    · rw [k1, k2]
    · exact absurd (e1 ▸ m2) (fresh l)
    · exact absurd (e2 ▸ m1) (fresh k)
    · exact s.apart k l c m1 m2
  · show c < h.n + 1 ↔ ∃ k < h.prime, c ∈ upd path i (h.n :: path i) k
    constructor
    · intro lt
      by_cases hc : c = h.n
      · exact ⟨i, hi, by rw [upd_same, hc]; simp⟩
      · obtain ⟨k, hk, m⟩ := (s.all c).1 (by omega)
        refine ⟨k, hk, ?_⟩
        unfold upd
        split
        · rename_i e; subst e; exact List.mem_cons_of_mem _ m
        · exact m
    · rintro ⟨k, hk, m⟩
      unfold upd at m
      split at m
      · rcases List.mem_cons.1 m with rfl | m
        · omega
        · have := (s.all c).2 ⟨i, hi, m⟩; omega
      · have := (s.all c).2 ⟨k, hk, m⟩; omega
  · intro m
    show k < h.prime
    unfold upd at m
    split at m
    · rename_i e; subst e; exact hi
    · exact s.inside k c m

theorem nodeFind_hasKey (ns : List Node) (key : Bytes) : nodeFind ns key = ns.findIdx? (hasKey key) := rfl

theorem Same.setNode {h : HTable} {t : Table} {path : Nat → List Nat} (s : Same h t path) (hp : 0 < t.prime) (key : Obj)
    (val : Option Obj) (flag node : Bool) :
    ∃ h' path', setNodeH h key val flag node = .ok h' ∧ Same h' (setNodeF t key val flag node) path' := by
  have hb : bucket key.str t.prime < h.prime := by rw [s.prime]; exact bucket_lt _ _ hp
  have he : bucket key.str h.prime = bucket key.str t.prime := by rw [s.prime]
  unfold setNodeH setNodeF Xht.setNode
  simp only [nodeFind_hasKey]
  rw [he]
  unfold emptyFind
  generalize bucket key.str t.prime = i at hb
  rcases s.search (hasKey key.str) i with ⟨a1, a2⟩ | ⟨a1, a2⟩ | ⟨j, c, a1, a2, a3⟩
  · rw [a1, a2]
    simp only [R.bind, Option.none_or]
    rcases s.search (fun n => n.val.isNone) i with ⟨b1, b2⟩ | ⟨b1, b2⟩ | ⟨j, c, b1, b2, b3⟩
    · rw [b1, b2]
      dsimp only
      cases node with
      | false => exact ⟨h, path, rfl, s⟩
      | true =>
        simp only [if_true]
        exact s.fillNew hb _
    · rw [b1, b2]
      dsimp only
      obtain ⟨h', e1, e2, -⟩ := s.fillHead i { flag := flag, key := some key, val := val }
      exact ⟨h', path, e1, e2⟩
    · rw [b1, b2]
      dsimp only
      obtain ⟨h', e1, e2, -⟩ := s.fillCell i { flag := flag, key := some key, val := val } b3
      exact ⟨h', path, e1, e2⟩
  · rw [a1, a2]
    obtain ⟨h', e1, e2, -⟩ := s.fillHead i { flag := flag, key := some key, val := val }
    exact ⟨h', path, e1, e2⟩
  · rw [a1, a2]
    obtain ⟨h', e1, e2, -⟩ := s.fillCell i { flag := flag, key := some key, val := val } a3
    exact ⟨h', path, e1, e2⟩

theorem Same.step {h : HTable} {t : Table} {path : Nat → List Nat} (s : Same h t path) (hp : 0 < t.prime) (o : Op × Luck) :
    ∃ h' path', stepH h o = .ok h' ∧ Same h' (stepF t o) path' := by
  obtain ⟨o, l⟩ := o
  cases o with
  | set a k v => exact s.setNode hp _ _ _ _
  | store key val =>
    cases val with
    | none => exact ⟨h, path, rfl, s⟩
    | some v =>
      unfold stepH stepF storeF
      dsimp only
      split
      · exact ⟨h, path, rfl, s⟩
      · split
        · exact ⟨h, path, rfl, s⟩
        · split
          · refine ⟨_, path, rfl, ⟨s.prime, ?_, ?_, s.links, s.nodup, s.apart, s.all, s.inside⟩⟩
            · show h.next + 1 = t.next + 1
              rw [s.next]
            · show h.freed ++ _ = t.freed ++ _
              rw [s.freed, s.next]
          · obtain ⟨h', path', e, s'⟩ := s.setNode hp ⟨.own h.next, cstr key⟩ (some ⟨.own (h.next + 1), cstr v⟩) true l.node
            rw [e]
            refine ⟨_, path', rfl, ⟨?_, ?_, ?_, ?_, s'.nodup, s'.apart, s'.all, s'.inside⟩⟩
            · rw [← s.next]; exact s'.prime
            · show h.next + 2 = t.next + 2
              rw [s.next]
            · rw [← s.next]; exact s'.freed
            · rw [← s.next]; exact s'.links

theorem stepF_prime (t : Table) (o : Op × Luck) : (stepF t o).prime = t.prime := by
  rcases stepF_cases t o.1 o.2 with e | ⟨_, r⟩
  · rw [show stepF t o = Xht.step t o.1 from e]
    cases o.1 with
    | set a k v => simp only [Xht.step, Xht.set, Xht.setNode]; split <;> rfl
    | store k v =>
      simp only [Xht.step, store, Xht.setNode]
      (repeat' split) <;> rfl
  · exact r.zen.2

theorem Same.run (ops : List (Op × Luck)) : ∀ {h : HTable} {t : Table} {path : Nat → List Nat}, Same h t path → 0 < t.prime →
    ∃ h' path', runH ops h = .ok h' ∧ Same h' (ops.foldl stepF t) path' := by
  induction ops with
  | nil => exact fun s _ => ⟨_, _, rfl, s⟩
  | cons o ops ih =>
    intro h t path s hp
    obtain ⟨h', path', e, s'⟩ := s.step hp o
    obtain ⟨h2, path2, e2, s2⟩ := ih s' (by rw [stepF_prime]; exact hp)
    refine ⟨h2, path2, ?_, s2⟩
    unfold runH
    rw [e]
    exact e2

theorem Same.new (p : Nat) : Same { prime := p } (new p) fun _ => [] :=
  ⟨rfl, rfl, rfl, fun _ => ⟨[], rfl, .nil⟩, fun _ => List.nodup_nil, fun _ _ _ h => (by cases h), fun c =>
    ⟨fun h => absurd h (by simp), fun ⟨_, _, h⟩ => (by cases h)⟩, fun _ _ h => (by cases h)⟩

theorem Same.get {h : HTable} {t : Table} {path : Nat → List Nat} (s : Same h t path) (k : Bytes) : getH h k = .ok (get t k) := by
  unfold getH Xht.get
  simp only [nodeFind_hasKey]
  rw [← s.prime]
  generalize bucket k h.prime = i
  obtain ⟨ns, hz, hl⟩ := s.links i
  rcases s.search (hasKey k) i with ⟨a1, a2⟩ | ⟨a1, a2⟩ | ⟨j, c, a1, a2, a3⟩
  · rw [a1, a2]; rfl
  · rw [a1, a2, hz]; rfl
  · rw [a1, a2, hz]
    obtain ⟨y, hy, hn⟩ := hl.get a3
    simp only [R.bind, load, hy, List.getD_cons_succ, hn]

theorem Same.walk {h : HTable} {t : Table} {path : Nat → List Nat} (s : Same h t path) (is : List Nat) :
    walkH h is = .ok (is.flatMap fun i => (t.zen i).filterMap fun n =>
      match n.key, n.val with
      | some k, some v => some (k, v)
      | _, _ => none) := by
  induction is with
  | nil => rfl
  | cons i is ih =>
    obtain ⟨ns, hz, hl⟩ := s.links i
    unfold walkH
    rw [hl.chain _ (s.len i), ih, List.flatMap_cons, hz]
    rfl

theorem Same.free {h : HTable} {t : Table} {path : Nat → List Nat} (s : Same h t path) (is : List Nat) :
    ∀ f : Freed, is.Nodup → (∀ i ∈ is, ∀ c ∈ path i, f.cells c = h.cells c) →
    ∃ f', freeBuckets h is f = .ok f' ∧ f'.addrs = f.addrs ++ (is.flatMap fun i => (t.zen i).flatMap freeNode) ∧
      f'.nodes = f.nodes ++ is.flatMap path ∧ ∀ c, f'.cells c = if c ∈ is.flatMap path then none else f.cells c := by
  induction is with
  | nil => exact fun f _ _ => ⟨f, rfl, by simp, by simp, by simp⟩
  | cons i is ih =>
    intro f nd hf
    obtain ⟨nd1, nd2⟩ := List.nodup_cons.1 nd
    obtain ⟨ns, hz, hl⟩ := s.links i
    have hl' : ∀ {p : Option Nat} {cs : List Nat} {ns : List Node}, Links h.cells p cs ns →
        (∀ c ∈ cs, f.cells c = h.cells c) → Links f.cells p cs ns := by
      intro p cs ns l
      induction l with
      | nil => exact fun _ => .nil
      | cons e _ ih => exact fun hc => .cons ((hc _ (by simp)).trans e) (ih fun c m => hc c (by simp [m]))
    obtain ⟨f1, e1, e2, e3, e4⟩ := Links.free (path i) h.n { f with addrs := f.addrs ++ freeNode (h.heads i).node }
      (hl' hl (hf i (by simp))) (s.nodup i) (s.len i)
    have e4 : ∀ c, f1.cells c = if c ∈ path i then none else f.cells c := e4
    obtain ⟨f2, g1, g2, g3, g4⟩ := ih f1 nd2 fun k hk c m => by
      rw [e4, if_neg, hf k (by simp [hk]) c m]
      intro m'
      have := s.apart k i c m m'
      subst this
      exact nd1 hk
    refine ⟨f2, ?_, ?_, ?_, fun c => ?_⟩
    · unfold freeBuckets
      rw [e1]
      exact g1
    · rw [g2, e2, List.flatMap_cons, hz]
      simp
    · rw [g3, e3, List.flatMap_cons]
      simp
    · rw [g4, e4, List.flatMap_cons]
      simp only [List.mem_append]
      by_cases h1 : c ∈ is.flatMap path <;> by_cases h2 : c ∈ path i <;> simp [h1, h2]

/-- **C119 (same).** Whatever is stored and whatever allocations fail, the table in memory never uses memory that was not
allocated, no loop over it runs on for ever, and `xht_get` and `xht_walk` give what the table of lists (C14 to C16, C110)
gives. -/
theorem C119_same (p : Nat) (hp : 0 < p) (ops : List (Op × Luck)) : ∃ h, runH ops { prime := p } = .ok h ∧
    (∀ k, getH h k = .ok (get (ops.foldl stepF (new p)) k)) ∧
    walkH h (List.range h.prime) = .ok (walk (ops.foldl stepF (new p))) := by
  obtain ⟨h, path, e, s⟩ := Same.run ops (Same.new p) hp
  refine ⟨h, e, s.get, ?_⟩
  rw [s.walk, s.prime]
  rfl

/-- **C119 (freed).** `xht_free` frees every node that was allocated, each exactly once, and touches none after that; the
keys and values it frees are those of C110. -/
theorem C119_freed (p : Nat) (hp : 0 < p) (ops : List (Op × Luck)) : ∃ h f, runH ops { prime := p } = .ok h ∧
    freeH h = .ok f ∧ f.nodes.Nodup ∧ (∀ c, c ∈ f.nodes ↔ c < h.n) ∧ (∀ c < h.n, f.cells c = none) ∧
    f.addrs = free (ops.foldl stepF (new p)) := by
  obtain ⟨h, path, e, s⟩ := Same.run ops (Same.new p) hp
  obtain ⟨f, e1, e2, e3, e4⟩ := s.free (List.range h.prime) { addrs := h.freed, cells := h.cells } List.nodup_range
    fun _ _ _ _ => rfl
  have hm : ∀ c, c ∈ (List.range h.prime).flatMap path ↔ c < h.n := by
    intro c
    rw [s.all]
    simp [List.mem_flatMap]
  have e3 : f.nodes = (List.range h.prime).flatMap path := by simpa using e3
  refine ⟨h, f, e, e1, ?_, fun c => by rw [e3]; exact hm c, fun c hc => by rw [e4, if_pos ((hm c).2 hc)], ?_⟩
  · rw [e3]
    have : ∀ is : List Nat, is.Nodup → (is.flatMap path).Nodup := by
      intro is
      induction is with
      | nil => exact fun _ => List.nodup_nil
      | cons i is ih =>
        intro nd
        obtain ⟨nd1, nd2⟩ := List.nodup_cons.1 nd
        rw [List.flatMap_cons]
        refine List.nodup_append.2 ⟨s.nodup i, ih nd2, ?_⟩
        rintro a ha b hb rfl
        obtain ⟨k, hk, m⟩ := List.mem_flatMap.1 hb
        have := s.apart i k a ha m
        subst this
        exact nd1 hk
    exact this _ List.nodup_range
  · rw [e2]
    show h.freed ++ _ = _
    rw [s.freed, s.prime]
    rfl

/-! ### Samples -/

/-- Calls in a table of one bucket: a key set again, a key removed and its node used again, an allocation that fails. -/
def sampleCalls : List (Op × Luck) :=
  [(.store [0x61] (some [1]), {}), (.store [0x62] (some [2]), {}), (.store [0x63] (some [3]), {}),
    (.store [0x64] (some [4]), { node := false }), (.set 7 [0x62] none, {}), (.store [0x65] (some [5]), {}),
    (.store [0x61] (some [6]), {})]

/-- What is found, and what is freed. -/
def sampleEnd (l : List Bytes) : Option (List (Option Bytes) × Nat × List Nat × Nat) :=
  match runH sampleCalls { prime := 1 } with
  | .ok h =>
    match freeH h with
    | .ok f => some (l.map (fun k => match getH h k with | .ok o => o.map (·.str) | _ => none), h.n, f.nodes, f.addrs.length)
    | _ => none
  | _ => none

example : sampleEnd [[0x61], [0x62], [0x63], [0x64], [0x65]] =
    some ([some [6], none, some [3], none, some [5]], 2, [1, 0], 10) := by decide +kernel

end Mdns.Xht
