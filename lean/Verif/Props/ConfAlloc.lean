import Verif.Model.ConfAlloc

/-!
# C109: the strings of service files and running out of memory
-/

namespace Mdns.Conf.Mem

open Mdns M
open Mdns.CLib

/-! ### Memory -/

/-- The block of a pointer. -/
def Str.ids : Str → List Nat
  | none => []
  | some p => [p.1]

/-- The blocks of several pointers. -/
def ids (ps : List Str) : List Nat := ps.flatMap Str.ids

/-- The pointers of the record. -/
def SRecH.ptrs (s : SRecH) : List Str := s.type :: s.name :: s.target :: s.cname :: s.txt

/-- What is in use: the strings of the record, and what was in use before. -/
def Owns (base : List Nat) (ps : List Str) (h : Heap) : Prop :=
  ∀ a, h.live.count a = (ids ps).count a + base.count a

theorem ids_cons (p : Str) (ps : List Str) : ids (p :: ps) = p.ids ++ ids ps := rfl

theorem ids_append (ps qs : List Str) : ids (ps ++ qs) = ids ps ++ ids qs := List.flatMap_append

theorem strdup_owns {mem : Nat → Bool} {base : List Nat} {ps : List Str} {h : Heap} (s : Bytes) (o : Owns base ps h) :
    Owns base ((strdup mem s h).1 :: ps) (strdup mem s h).2 := by
  intro a
  have := o a
  unfold strdup
  split <;> simp only [ids_cons, Str.ids, List.count_append, List.count_cons, List.count_nil, List.nil_append] <;> omega

theorem free_owns {base : List Nat} {p : Str} {ps : List Str} {h : Heap} (o : Owns base (p :: ps) h) :
    ∃ h', free p h = .ok h' ∧ Owns base ps h' := by
  cases p with
  | none => exact ⟨h, rfl, o⟩
  | some p =>
    have m : p.1 ∈ h.live := by
      rw [← List.count_pos_iff, o]
      simp only [ids_cons, Str.ids, List.count_append, List.count_cons_self]
      omega
    refine ⟨_, if_pos m, fun a => ?_⟩
    have := o a
    simp only [ids_cons, Str.ids, List.count_append, List.count_cons, List.count_nil] at this
    show (h.live.erase p.1).count a = _
    rw [List.count_erase]
    omega

theorem freeAll_owns {base : List Nat} : ∀ {ps : List Str} {h : Heap}, Owns base ps h → ∃ h', freeAll ps h = .ok h' ∧ Owns base [] h'
  | [], h, o => ⟨h, rfl, o⟩
  | p :: ps, h, o => by
    obtain ⟨h1, e1, o1⟩ := free_owns o
    obtain ⟨h2, e2, o2⟩ := freeAll_owns o1
    exact ⟨h2, by rw [freeAll, e1]; exact e2, o2⟩

theorem Owns.perm {base : List Nat} {ps qs : List Str} {h : Heap} (o : Owns base ps h)
    (e : ∀ a, (ids qs).count a = (ids ps).count a) : Owns base qs h := fun a => by rw [o a, e a]

theorem replace_owns {mem : Nat → Bool} {base : List Nat} {p : Str} {ps : List Str} {h : Heap} (arg : Bytes)
    (o : Owns base (p :: ps) h) : ∃ q h', replace mem p arg h = .ok (q, h') ∧ Owns base (q :: ps) h' ∧
      ∃ h1, (q, h') = strdup mem arg h1 := by
  obtain ⟨h1, e1, o1⟩ := free_owns o
  exact ⟨_, _, by rw [replace, e1], strdup_owns arg o1, h1, rfl⟩

/-! ### Values -/

/-- The text a pointer points to, if it is not NULL. -/
def Str.is (p : Str) (o : Option Bytes) : Prop := p.map (·.2) = none ∨ p.map (·.2) = o

/-- The record as it is without want of memory, except that some strings may be missing; none is
missing if memory does not run out. -/
structure Lacks (mem : Nat → Bool) (s : SRecH) (t : SRec) : Prop where
  type : s.type.is t.type
  name : s.name.is t.name
  port : s.port = t.port
  target : s.target.is t.target
  cname : s.cname.is t.cname
  len : s.txt.length = t.txt.length
  txt : none ∉ s.txt → s.txt.filterMap (·.map (·.2)) = t.txt
  all : (∀ k, mem k = true) → s.type.map (·.2) = t.type ∧ s.name.map (·.2) = t.name ∧ s.target.map (·.2) = t.target ∧
    s.cname.map (·.2) = t.cname ∧ none ∉ s.txt

theorem strdup_is {mem : Nat → Bool} {s : Bytes} {h : Heap} : (strdup mem s h).1.is (some s) := by
  unfold strdup
  split
  · exact .inr rfl
  · exact .inl rfl

theorem strdup_all {mem : Nat → Bool} {s : Bytes} {h : Heap} (hm : ∀ k, mem k = true) : (strdup mem s h).1.map (·.2) = some s := by
  unfold strdup
  rw [if_pos (hm _)]
  rfl

theorem readLineH_ok {mem : Nat → Bool} {base : List Nat} {line : Bytes} {s : SRecH} {t t' : SRec} {h : Heap}
    (o : Owns base s.ptrs h) (l : Lacks mem s t) (e : readLine line t = .ok t') :
    ∃ s' h', readLineH mem line s h = .ok (s', h') ∧ Owns base s'.ptrs h' ∧ Lacks mem s' t' := by
  unfold readLine at e
  unfold readLineH
  cases hc : chomp line with
  | oob => rw [hc] at e; cases e
  | ok c =>
    rw [hc] at e
    cases c with
    | none => cases e; exact ⟨s, h, rfl, o, l⟩
    | some c =>
      dsimp only at e ⊢
      by_cases h1 : c.head? = some 0x23
      · rw [if_pos h1] at e ⊢; cases e; exact ⟨s, h, rfl, o, l⟩
      · rw [if_neg h1] at e ⊢
        rcases hs : strsep c with ⟨tok, _ | arg⟩
        · rw [hs] at e; cases e; exact ⟨s, h, rfl, o, l⟩
        · rw [hs] at e
          dsimp only at e ⊢
          by_cases h2 : tok = kwType
          · rw [if_pos h2] at e ⊢
            cases e
            obtain ⟨q, h', er, o', hs', es⟩ := replace_owns (mem := mem) (base := base) (p := s.type)
              (ps := s.name :: s.target :: s.cname :: s.txt) arg o
            have eq : q = (strdup mem arg hs').1 := congrArg Prod.fst es
            rw [er]
            exact ⟨_, _, rfl, o', { l with
              type := eq ▸ strdup_is
              all := fun hm => ⟨by rw [show ({ s with type := q } : SRecH).type = q from rfl, eq]; exact strdup_all hm, (l.all hm).2⟩ }⟩
          rw [if_neg h2] at e ⊢
          by_cases h3 : tok = kwName
          · rw [if_pos h3] at e ⊢
            cases e
            obtain ⟨q, h', er, o', hs', es⟩ := replace_owns (mem := mem) (base := base) (p := s.name)
              (ps := s.type :: s.target :: s.cname :: s.txt) arg
              (o.perm fun a => by simp only [SRecH.ptrs, ids_cons, List.count_append]; omega)
            have eq : q = (strdup mem arg hs').1 := congrArg Prod.fst es
            rw [er]
            exact ⟨_, _, rfl, o'.perm fun a => by simp only [SRecH.ptrs, ids_cons, List.count_append]; omega, { l with
              name := eq ▸ strdup_is
              all := fun hm => ⟨(l.all hm).1, by rw [show ({ s with name := q } : SRecH).name = q from rfl, eq]; exact strdup_all hm, (l.all hm).2.2⟩ }⟩
          rw [if_neg h3] at e ⊢
          by_cases h4 : tok = kwPort
          · rw [if_pos h4] at e ⊢
            cases e
            exact ⟨_, _, rfl, o, { l with port := rfl }⟩
          rw [if_neg h4] at e ⊢
          by_cases h5 : tok = kwTarget
          · rw [if_pos h5] at e ⊢
            cases e
            obtain ⟨q, h', er, o', hs', es⟩ := replace_owns (mem := mem) (base := base) (p := s.target)
              (ps := s.type :: s.name :: s.cname :: s.txt) arg
              (o.perm fun a => by simp only [SRecH.ptrs, ids_cons, List.count_append]; omega)
            have eq : q = (strdup mem arg hs').1 := congrArg Prod.fst es
            rw [er]
            exact ⟨_, _, rfl, o'.perm fun a => by simp only [SRecH.ptrs, ids_cons, List.count_append]; omega, { l with
              target := eq ▸ strdup_is
              all := fun hm => ⟨(l.all hm).1, (l.all hm).2.1, by rw [show ({ s with target := q } : SRecH).target = q from rfl, eq]; exact strdup_all hm, (l.all hm).2.2.2⟩ }⟩
          rw [if_neg h5] at e ⊢
          by_cases h6 : tok = kwCname
          · rw [if_pos h6] at e ⊢
            cases e
            obtain ⟨q, h', er, o', hs', es⟩ := replace_owns (mem := mem) (base := base) (p := s.cname)
              (ps := s.type :: s.name :: s.target :: s.txt) arg
              (o.perm fun a => by simp only [SRecH.ptrs, ids_cons, List.count_append]; omega)
            have eq : q = (strdup mem arg hs').1 := congrArg Prod.fst es
            rw [er]
            exact ⟨_, _, rfl, o'.perm fun a => by simp only [SRecH.ptrs, ids_cons, List.count_append]; omega, { l with
              cname := eq ▸ strdup_is
              all := fun hm => ⟨(l.all hm).1, (l.all hm).2.1, (l.all hm).2.2.1, by rw [show ({ s with cname := q } : SRecH).cname = q from rfl, eq]; exact strdup_all hm, (l.all hm).2.2.2.2⟩ }⟩
          rw [if_neg h6] at e ⊢
          by_cases h7 : tok = kwTxt ∧ t.txt.length < 42
          · rw [if_pos h7] at e
            rw [if_pos (by rw [l.len]; exact h7)]
            cases e
            refine ⟨{ s with txt := s.txt ++ [(strdup mem arg h).1] }, (strdup mem arg h).2, rfl, (strdup_owns arg o).perm fun a => ?_, { l with len := ?_, txt := ?_, all := ?_ }⟩
            · simp only [SRecH.ptrs, ids_cons, ids_append, List.count_append, show ids [] = [] from rfl, List.count_nil]
              omega
            · simp [l.len]
            · intro hn
              have n1 : none ∉ s.txt := fun m => hn (by simp [m])
              have n2 : (strdup mem arg h).1 ≠ none := fun m => hn (by simp [m])
              rw [List.filterMap_append, l.txt n1]
              rcases strdup_is (mem := mem) (s := arg) (h := h) with k | k
              · exact absurd (Option.map_eq_none_iff.mp k) n2
              · simp [k]
            · intro hm
              refine ⟨(l.all hm).1, (l.all hm).2.1, (l.all hm).2.2.1, (l.all hm).2.2.2.1, fun m => ?_⟩
              rcases List.mem_append.mp m with m | m
              · exact (l.all hm).2.2.2.2 m
              · have := strdup_all (s := arg) (h := h) hm
                rw [← List.mem_singleton.mp m] at this
                cases this
          · rw [if_neg h7] at e
            rw [if_neg (by rw [l.len]; exact h7)]
            cases e
            exact ⟨s, h, rfl, o, l⟩

theorem readLine_oob {mem : Nat → Bool} {line : Bytes} {s : SRecH} {t : SRec} {h : Heap} (e : readLine line t = .oob) :
    readLineH mem line s h = .oob := by
  unfold readLine at e
  unfold readLineH
  cases hc : chomp line with
  | oob => rfl
  | ok c =>
    rw [hc] at e
    cases c with
    | none => cases e
    | some c =>
      dsimp only at e
      split at e
      · cases e
      · split at e
        · cases e
        · repeat' split at e
          all_goals cases e

theorem parseLoopH_ok {mem : Nat → Bool} {base : List Nat} : ∀ (n : Nat) {f : Bytes} {s : SRecH} {t : SRec} {h : Heap},
    Owns base s.ptrs h → Lacks mem s t →
    (parseLoop n f t = .oob ∧ parseLoopH mem n f s h = .oob) ∨
    ∃ t' s' h', parseLoop n f t = .ok t' ∧ parseLoopH mem n f s h = .ok (s', h') ∧ Owns base s'.ptrs h' ∧ Lacks mem s' t'
  | 0, f, s, t, h, o, l => .inr ⟨t, s, h, rfl, rfl, o, l⟩
  | n + 1, f, s, t, h, o, l => by
    unfold parseLoop parseLoopH
    by_cases hf : f = []
    · rw [if_pos hf, if_pos hf]
      exact .inr ⟨t, s, h, rfl, rfl, o, l⟩
    · rw [if_neg hf, if_neg hf]
      cases hr : readLine (cstr (fgets 256 f).1) t with
      | oob => exact .inl ⟨rfl, by rw [readLine_oob hr]⟩
      | ok t' =>
        obtain ⟨s', h', e', o', l'⟩ := readLineH_ok o l hr
        rw [e']
        exact parseLoopH_ok n o' l'

theorem default_owns {mem : Nat → Bool} {base : List Nat} {p : Str} {ps : List Str} {d : Bytes} {h : Heap}
    (o : Owns base (p :: ps) h) : Owns base ((default mem p d h).1 :: ps) (default mem p d h).2 := by
  cases p with
  | none => exact strdup_owns d o
  | some p => exact o

theorem default_is {mem : Nat → Bool} {p : Str} {d : Bytes} {h : Heap} {q : Nat × Bytes} {o : Option Bytes} (l : p.is o)
    (e : (default mem p d h).1 = some q) : q.2 = d ∨ some q.2 = o := by
  cases p with
  | none =>
    rcases strdup_is (mem := mem) (s := d) (h := h) with k | k
    · rw [show (strdup mem d h).1 = some q from e] at k
      cases k
    · rw [show (strdup mem d h).1 = some q from e] at k
      exact .inl (Option.some.inj k)
  | some p =>
    cases e
    rcases l with l | l
    · cases l
    · exact .inr l

theorem default_all {mem : Nat → Bool} {p : Str} {d : Bytes} {h : Heap} {o : Option Bytes} (hm : ∀ k, mem k = true)
    (l : p.map (·.2) = o) : (default mem p d h).1.map (·.2) = some (o.getD d) := by
  cases p with
  | none => cases l; exact strdup_all hm
  | some p => cases l; rfl

/-- What `load` does, all in one. -/
theorem loadStrings_cases (mem : Nat → Bool) (file hostname : Bytes) (h : Heap) :
    (parse file = .oob ∧ loadStrings mem file hostname h = .oob) ∨
    (∃ s, parse file = .ok s ∧ (¬∀ k, mem k = true) ∧ loadStrings mem file hostname h = .null) ∨
    ∃ s r h', parse file = .ok s ∧ loadStrings mem file hostname h = .ok (r, h') ∧ (∀ a, h'.live.count a = h.live.count a) ∧
      r.port = s.port ∧ r.txt = s.txt ∧ (r.name = some hostname ∨ r.name = s.name) ∧ (r.type = some httpTcp ∨ r.type = s.type) ∧
      (r.target = none ∨ r.target = s.target) ∧ (r.cname = none ∨ r.cname = s.cname) ∧
      ((∀ k, mem k = true) → r = { s with name := some (s.nameOf hostname), type := some s.typeOf }) := by
  have o : Owns h.live ({} : SRecH).ptrs h := fun a => by simp [ids, SRecH.ptrs, Str.ids]
  have l : Lacks mem {} {} := ⟨.inl rfl, .inl rfl, rfl, .inl rfl, .inl rfl, rfl, fun _ => rfl, fun _ => ⟨rfl, rfl, rfl, rfl, by simp⟩⟩
  unfold loadStrings parse
  rcases parseLoopH_ok file.length (f := file) o l with ⟨e1, e2⟩ | ⟨t, s, h1, e1, e2, o1, l1⟩
  · exact .inl ⟨e1, by rw [e2]⟩
  refine .inr ?_
  rw [e1, e2]
  dsimp only
  have o2 := default_owns (mem := mem) (p := s.name) (d := hostname) (ps := s.type :: s.target :: s.cname :: s.txt)
    (o1.perm fun a => by simp only [SRecH.ptrs, ids_cons, List.count_append]; omega)
  have n1 := fun q => default_is (mem := mem) (d := hostname) (h := h1) (q := q) l1.name
  have n2 := fun hm => default_all (d := hostname) (h := h1) hm (l1.all hm).2.1
  rcases hn : default mem s.name hostname h1 with ⟨n, h2⟩
  rw [hn] at o2 n1 n2
  have o3 := default_owns (mem := mem) (p := s.type) (d := httpTcp) (ps := n :: s.target :: s.cname :: s.txt)
    (o2.perm fun a => by simp only [ids_cons, List.count_append]; omega)
  have t1 := fun q => default_is (mem := mem) (d := httpTcp) (h := h2) (q := q) l1.type
  have t2 := fun hm => default_all (d := httpTcp) (h := h2) hm (l1.all hm).1
  dsimp only
  rcases ht : default mem s.type httpTcp h2 with ⟨u, h3⟩
  rw [ht] at o3 t1 t2
  dsimp only at o3 n1 n2 t1 t2 ⊢
  cases n with
  | none =>
    refine .inl ⟨t, rfl, fun hm => ?_, ?_⟩
    · have := n2 hm; cases this
    · cases u <;> rfl
  | some n =>
    cases u with
    | none => exact .inl ⟨t, rfl, fun hm => (by have := t2 hm; cases this), rfl⟩
    | some u =>
      dsimp only
      by_cases hx : none ∈ s.txt
      · exact .inl ⟨t, rfl, fun hm => (l1.all hm).2.2.2.2 hx, by rw [if_pos hx]⟩
      · rw [if_neg hx]
        obtain ⟨h4, e4, o4⟩ := freeAll_owns o3
        rw [e4]
        refine .inr ⟨t, _, h4, rfl, rfl, fun a => (by rw [o4 a]; simp [ids]), l1.port, l1.txt hx, ?_, ?_, l1.target, l1.cname, fun hm => ?_⟩
        · rcases n1 n rfl with k | k
          · exact .inl (congrArg some k)
          · exact .inr k
        · rcases t1 u rfl with k | k
          · exact .inl (congrArg some k)
          · exact .inr k
        · obtain ⟨_, _, a3, a4, _⟩ := l1.all hm
          have a1 : some n.2 = some (t.nameOf hostname) := n2 hm
          have a2 : some u.2 = some t.typeOf := t2 hm
          rw [a1, a2, a3, a4, l1.port, l1.txt hx]

/-! ### C109 -/

/-- C109, memory: whatever the file contains and however often memory is refused, `load` frees
nothing that is not in use, and when it is through exactly the blocks are in use that were before. -/
theorem C109_freed (mem : Nat → Bool) (file hostname : Bytes) (h : Heap) :
    loadStrings mem file hostname h ≠ .badfree ∧
    ∀ r h', loadStrings mem file hostname h = .ok (r, h') → h'.live.Perm h.live := by
  rcases loadStrings_cases mem file hostname h with ⟨_, e⟩ | ⟨_, _, _, e⟩ | ⟨s, r, h1, _, e, c, _⟩
  · rw [e]; exact ⟨nofun, nofun⟩
  · rw [e]; exact ⟨nofun, nofun⟩
  · rw [e]
    refine ⟨nofun, fun r' h' e' => ?_⟩
    cases e'
    exact List.perm_iff_count.mpr c

/-- C109, enough memory: the settings are those of the file, a missing name being the host's and a
missing type `_http._tcp`. -/
theorem C109_enough {mem : Nat → Bool} (hm : ∀ k, mem k = true) {file : Bytes} {s : SRec} (hp : parse file = .ok s)
    (hostname : Bytes) (h : Heap) : ∃ h', loadStrings mem file hostname h =
      .ok ({ s with name := some (s.name.getD hostname), type := some (s.type.getD httpTcp) }, h') := by
  rcases loadStrings_cases mem file hostname h with ⟨e, _⟩ | ⟨_, _, e, _⟩ | ⟨s', r, h1, e1, e, _, _, _, _, _, _, _, a⟩
  · rw [hp] at e; cases e
  · exact absurd hm e
  · rw [hp] at e1
    cases e1
    exact ⟨h1, by rw [e, a hm]; rfl⟩

/-- C109, enough memory: publishing a file with the memory of its strings is the function of C63,
C64 and C77. -/
theorem C109_loaded {Q : Type} [QOps Q] {mem : Nat → Bool} (hm : ∀ k, mem k = true) (cb : Nat) (file : Option Bytes) (hostname : Bytes)
    (addrs : Option (List Ip4 × List Ip6)) (h : Heap) :
    (do let x ← loadFileH mem cb file hostname addrs h; pure x.1 : M Q Nat) = loadFile cb file hostname addrs := by
  cases file with
  | none => rfl
  | some b =>
    unfold loadFileH loadFile
    dsimp only
    rcases loadStrings_cases mem b hostname h with ⟨e, e'⟩ | ⟨_, _, e, _⟩ | ⟨s', r, h1, e1, e, _, _, _, _, _, _, _, a⟩
    · rw [e, e']; rfl
    · exact absurd hm e
    · rw [e1, e, a hm]
      funext d
      have run : ∀ {α β : Type} (x : M Q α) (f : α → M Q β) (d : D Q), (x >>= f) d = (match x d with
        | .ok (a, d') => f a d'
        | .ub => .ub
        | .hang => .hang) := fun _ _ _ => rfl
      have same : load (Q := Q) cb { s' with name := some (s'.nameOf hostname), type := some s'.typeOf } hostname addrs =
        load cb s' hostname addrs := rfl
      dsimp only
      rw [same]
      simp only [run]
      cases load cb s' hostname addrs d <;> rfl

/-- C109, partial: if memory runs out, a file that can be read is either published with the port and TXT strings it has, and
the name, type, target and alias it has, each of which may be missing, in which case the name is the host's
and the type is `_http._tcp`; or NULL is used as a string.  Missing: that no setting is lost, and that NULL is not used. -/
theorem C109_short_partial {file : Bytes} {s : SRec} (hp : parse file = .ok s) (mem : Nat → Bool) (hostname : Bytes) (h : Heap) :
    ((¬∀ k, mem k = true) ∧ loadStrings mem file hostname h = .null) ∨
    ∃ r h', loadStrings mem file hostname h = .ok (r, h') ∧ r.port = s.port ∧ r.txt = s.txt ∧
      (r.name = some hostname ∨ r.name = s.name) ∧ (r.type = some httpTcp ∨ r.type = s.type) ∧
      (r.target = none ∨ r.target = s.target) ∧ (r.cname = none ∨ r.cname = s.cname) := by
  rcases loadStrings_cases mem file hostname h with ⟨e, _⟩ | ⟨_, _, e, e'⟩ | ⟨s', r, h1, e1, e, _, p, x, n, t, g, c, _⟩
  · rw [hp] at e; cases e
  · exact .inl ⟨e, e'⟩
  · rw [hp] at e1
    cases e1
    exact .inr ⟨r, h1, e, p, x, n, t, g, c⟩

/-! ### Concrete cases -/

namespace Sample

/-- `name a`, `txt b=c`, `name d`. -/
def threeLines : Bytes := kwName ++ [0x20, 0x61, 0x0A] ++ kwTxt ++ [0x20, 0x62, 0x3D, 0x63, 0x0A] ++ kwName ++ [0x20, 0x64, 0x0A]

/-- All calls but one get memory. -/
def butOne (n : Nat) : Nat → Bool := fun k => k != n

end Sample

open Sample

/-- Enough memory: the first name is freed before the second is stored, everything at the end. -/
example : parse threeLines = .ok { name := some [0x64], txt := [[0x62, 0x3D, 0x63]] } ∧
    loadStrings (fun _ => true) threeLines [0x68] { next := 7, live := [3] } =
      .ok ({ name := some [0x64], type := some httpTcp, txt := [[0x62, 0x3D, 0x63]] }, { next := 11, live := [3] }) := by decide +kernel

/-- The first name does not get memory: the second is used all the same. -/
example : loadStrings (butOne 0) threeLines [0x68] {} =
    .ok ({ name := some [0x64], type := some httpTcp, txt := [[0x62, 0x3D, 0x63]] }, { next := 4, live := [] }) := by decide +kernel

/-- C109: if the last name does not get memory, the service is published under the name of the host, and
nothing is reported. -/
theorem C109_renamed_counterexample : loadStrings (butOne 2) threeLines [0x68] {} =
    .ok ({ name := some [0x68], type := some httpTcp, txt := [[0x62, 0x3D, 0x63]] }, { next := 5, live := [] }) := by decide +kernel

/-- C109: if a TXT string does not get memory, NULL is searched for `=`. -/
theorem C109_txt_counterexample : loadStrings (butOne 1) threeLines [0x68] {} = .null := by decide +kernel

/-- C109: if the default of the type does not get memory, NULL is printed. -/
theorem C109_default_counterexample : loadStrings (butOne 3) threeLines [0x68] {} = .null := by decide +kernel

end Mdns.Conf.Mem
