import Verif.Model.Options

/-!
# C93: options
-/

namespace Mdns.Opt

open Mdns.CLib

/-! ### Specification -/

/-- What somebody means by a part of a command line: an option, an option with its argument, or an operand. -/
inductive Item where
  | flag (c : UInt8)
  | value (c : UInt8) (v : Bytes)
  | word (w : Bytes)
deriving DecidableEq, Repr

/-- A word that is not taken for an option: it does not begin with `-`, or is `-`. -/
def Plain (w : Bytes) : Prop := w = [0x2D] ∨ w.head? ≠ some 0x2D

/-- How items are written on a command line.  `-a -b`, `-ab`, `-o value`, `-ovalue` and `-abo value` are the usual forms; behind `--`
there are only operands.  With `posix` there are only operands behind the first one. -/
inductive Written (posix : Bool) (spec : Spec) : List Item → List Bytes → Prop where
  | nil : Written posix spec [] []
  | rest (ws : List Bytes) : Written posix spec (ws.map .word) ([0x2D, 0x2D] :: ws)
  | word {its args w} (p : Plain w) (h : posix = false) (n : Written posix spec its args) : Written posix spec (.word w :: its) (w :: args)
  | words {w} {ws : List Bytes} (p : Plain w) (h : posix = true) : Written posix spec ((w :: ws).map .word) (w :: ws)
  | flags {its args fs} (ne : fs ≠ []) (hf : ∀ c ∈ fs, spec c = some false) (n : Written posix spec its args) :
      Written posix spec (fs.map .flag ++ its) ((0x2D :: fs) :: args)
  | joined {its args fs c v} (hf : ∀ c ∈ fs, spec c = some false) (hc : spec c = some true) (hv : v ≠ []) (n : Written posix spec its args) :
      Written posix spec (fs.map .flag ++ .value c v :: its) ((0x2D :: (fs ++ c :: v)) :: args)
  | separate {its args fs c v} (hf : ∀ c ∈ fs, spec c = some false) (hc : spec c = some true) (n : Written posix spec its args) :
      Written posix spec (fs.map .flag ++ .value c v :: its) ((0x2D :: (fs ++ [c])) :: v :: args)

/-- The last argument given for an option. -/
def lastOf (c : UInt8) (its : List Item) : Option Bytes :=
  (its.filterMap fun i => match i with | .value c' v => if c' = c then some v else none | _ => none).getLast?

/-- The operands. -/
def operands (its : List Item) : List Bytes := its.filterMap fun i => match i with | .word w => some w | _ => none

/-- The options `mdnsd` goes on after: `-n`, `-s`, any name or interface, a log level other than -1 (C52), a number from 1 to 255. -/
def Item.good : Item → Prop
  | .flag c => c = 0x6E ∨ c = 0x73
  | .value c v => (c = 0x6C → (Log.setLevel 0 v).1 ≠ -1) ∧ (c = 0x74 → 1 ≤ atoi v ∧ atoi v ≤ 255)
  | .word _ => True

/-! ### `getopt` -/

def Item.got : Item → Option Got
  | .flag c => some (c, none)
  | .value c v => some (c, some v)
  | .word _ => none

theorem operands_word (ws : List Bytes) : operands (ws.map .word) = ws := by
  induction ws with
  | nil => rfl
  | cons w t ih => exact congrArg (w :: ·) ih

theorem got_word (ws : List Bytes) : (ws.map Item.word).filterMap Item.got = [] := by
  induction ws with
  | nil => rfl
  | cons w t ih => exact ih

theorem operands_flags (fs : Bytes) (its : List Item) : operands (fs.map .flag ++ its) = operands its := by
  induction fs with
  | nil => rfl
  | cons w t ih => exact ih

theorem got_flags (fs : Bytes) (its : List Item) :
    (fs.map Item.flag ++ its).filterMap Item.got = fs.map (fun c => (c, none)) ++ its.filterMap Item.got := by
  induction fs with
  | nil => rfl
  | cons w t ih => exact congrArg ((w, none) :: ·) ih

theorem cluster_flags {spec : Spec} {fs : Bytes} (hf : ∀ c ∈ fs, spec c = some false) (w : Bytes) (rest : List Bytes) :
    cluster spec (fs ++ w) rest = (fs.map (fun c => (c, none)) ++ (cluster spec w rest).1, (cluster spec w rest).2) := by
  induction fs with
  | nil => rfl
  | cons c t ih =>
    have e := ih fun c m => hf c (by simp [m])
    rw [List.cons_append, cluster.eq_def]
    simp only [hf c (by simp), e]
    rfl

theorem getopt_plain {posix : Bool} {spec : Spec} {w : Bytes} (p : Plain w) (rest : List Bytes) :
    getopt posix spec (w :: rest) = if posix then ([], w :: rest)
      else ((getopt posix spec rest).1, w :: (getopt posix spec rest).2) := by
  rcases p with rfl | p
  · rw [getopt]
    · intro h; cases h
    · intro c w h; cases h
  · rw [getopt]
    · intro h; rw [h] at p; exact p rfl
    · intro c w' h; rw [h] at p; exact p rfl

theorem getopt_option {posix : Bool} {spec : Spec} {c : UInt8} {w : Bytes} (h : c :: w ≠ [0x2D]) (rest : List Bytes) :
    getopt posix spec ((0x2D :: c :: w) :: rest) = ((cluster spec (c :: w) rest).1 ++ (getopt posix spec (cluster spec (c :: w) rest).2).1,
      (getopt posix spec (cluster spec (c :: w) rest).2).2) := by
  rw [getopt]
  intro e
  simp_all

theorem Written.getopt {posix : Bool} {spec : Spec} (hs : spec 0x2D = none) {its : List Item} {args : List Bytes}
    (n : Written posix spec its args) : Opt.getopt posix spec args = (its.filterMap Item.got, operands its) := by
  induction n with
  | nil => rw [Opt.getopt]; rfl
  | rest ws => rw [Opt.getopt, got_word, operands_word]
  | @word its args w p h n ih => rw [getopt_plain p, ih, h]; rfl
  | @words w ws p h => rw [getopt_plain p, h, got_word, operands_word]; rfl
  | @flags its args fs ne hf n ih =>
    obtain ⟨c, t, rfl⟩ := List.exists_cons_of_ne_nil ne
    have e := cluster_flags hf [] args
    rw [List.append_nil] at e
    rw [getopt_option (fun h => by injection h with h; have := hf c (by simp); rw [h, hs] at this; cases this), e]
    dsimp only [cluster]
    rw [ih, got_flags, operands_flags, List.append_nil]
  | @joined its args fs c v hf hc hv n ih =>
    have e := cluster_flags hf (c :: v) args
    obtain ⟨c', t, h⟩ : ∃ c' t, fs ++ c :: v = c' :: t := List.exists_cons_of_ne_nil (by simp)
    have ne : c' :: t ≠ [0x2D] := by
      intro h2
      rw [← h] at h2
      cases fs with
      | nil => injection h2 with h2 _; rw [h2, hs] at hc; cases hc
      | cons a b => simp at h2
    rw [h] at e
    rw [h, getopt_option ne, e]
    simp only [cluster, hc, ne_eq, hv, not_false_eq_true, if_pos]
    rw [ih, got_flags, operands_flags]
    simp [Item.got, operands]
  | @separate its args fs c v hf hc n ih =>
    have e := cluster_flags hf [c] (v :: args)
    obtain ⟨c', t, h⟩ : ∃ c' t, fs ++ [c] = c' :: t := List.exists_cons_of_ne_nil (by simp)
    have ne : c' :: t ≠ [0x2D] := by
      intro h2
      rw [← h] at h2
      cases fs with
      | nil => injection h2 with h2 _; rw [h2, hs] at hc; cases hc
      | cons a b => simp at h2
    rw [h] at e
    rw [h, getopt_option ne, e]
    simp only [cluster, hc]
    rw [if_neg (by simp)]
    dsimp only
    rw [ih, got_flags, operands_flags]
    simp [Item.got, operands]

/-- A word of options without `?`. -/
theorem cluster_written {spec : Spec} : ∀ (w : Bytes) (rest : List Bytes), (∀ g ∈ (cluster spec w rest).1, g.1 ≠ 0x3F) →
    ((∀ c ∈ w, spec c = some false) ∧ (cluster spec w rest).2 = rest) ∨
    (∃ fs c v, w = fs ++ c :: v ∧ (∀ c ∈ fs, spec c = some false) ∧ spec c = some true ∧
      (v ≠ [] ∧ (cluster spec w rest).2 = rest ∨ v = [] ∧ ∃ a r, rest = a :: r ∧ (cluster spec w rest).2 = r))
  | [], rest, _ => .inl ⟨fun c m => by simp at m, rfl⟩
  | c :: w, rest, h => by
    unfold cluster at h ⊢
    cases hc : spec c with
    | none => rw [hc] at h; exact absurd rfl (h (0x3F, none) (by simp))
    | some b =>
      rw [hc] at h
      cases b with
      | false =>
        dsimp only at h ⊢
        rcases cluster_written (spec := spec) w rest fun g m => h g (by simp [m]) with ⟨h1, h2⟩ | ⟨fs, c', v, e, h1, h2, h3⟩
        · exact .inl ⟨List.forall_mem_cons.mpr ⟨hc, h1⟩, h2⟩
        · exact .inr ⟨c :: fs, c', v, by rw [e]; rfl, List.forall_mem_cons.mpr ⟨hc, h1⟩, h2, h3⟩
      | true =>
        refine .inr ⟨[], c, w, rfl, fun c m => by simp at m, hc, ?_⟩
        dsimp only at h ⊢
        by_cases hw : w = []
        · refine .inr ⟨hw, ?_⟩
          rw [if_neg (by simpa using hw)] at h ⊢
          cases rest with
          | nil => exact absurd rfl (h (0x3F, none) (by simp))
          | cons a r => exact ⟨a, r, rfl, rfl⟩
        · refine .inl ⟨hw, ?_⟩
          rw [if_pos hw]

theorem written_of {posix : Bool} {spec : Spec} : ∀ (n : Nat) (args : List Bytes), args.length ≤ n →
    (∀ g ∈ (getopt posix spec args).1, g.1 ≠ 0x3F) → ∃ its, Written posix spec its args
  | _, [], _, _ => ⟨[], .nil⟩
  | 0, _ :: _, h, _ => by simp at h
  | n + 1, w :: rest, hn, h => by
    have hl : rest.length ≤ n := by simpa using hn
    have plain : Plain w → ∃ its, Written posix spec its (w :: rest) := by
      intro p
      rw [getopt_plain p] at h
      cases posix with
      | true => exact ⟨_, .words p rfl⟩
      | false =>
        obtain ⟨its, n⟩ := written_of (posix := false) (spec := spec) n rest hl h
        exact ⟨_, .word p rfl n⟩
    match w, plain with
    | [], plain => exact plain (.inr (by simp))
    | [a], plain =>
      by_cases ha : a = 0x2D
      · exact plain (.inl (by rw [ha]))
      · exact plain (.inr (by simpa using ha))
    | a :: c :: w, plain =>
      by_cases ha : a = 0x2D
      · subst ha
        by_cases hd : c :: w = [0x2D]
        · rw [hd]
          exact ⟨_, .rest rest⟩
        · rw [getopt_option hd] at h
          have le := cluster_le spec (c :: w) rest
          obtain ⟨its, nr⟩ := written_of (posix := posix) (spec := spec) n _ (Nat.le_trans le hl) fun g m => h g (by simp [m])
          rcases cluster_written (spec := spec) (c :: w) rest fun g m => h g (by simp [m]) with ⟨h1, h2⟩ | ⟨fs, c', v, e, h1, h2, ⟨h3, h4⟩ | ⟨rfl, a, r, rfl, h4⟩⟩
          · rw [h2] at nr
            exact ⟨_, .flags (by simp) h1 nr⟩
          · rw [h4] at nr
            rw [e]
            exact ⟨_, .joined h1 h2 h3 nr⟩
          · rw [h4] at nr
            rw [e]
            exact ⟨_, .separate h1 h2 nr⟩
      · exact plain (.inr (by simpa using ha))

theorem Written.fits {posix : Bool} {spec : Spec} {its : List Item} {args : List Bytes} (n : Written posix spec its args) :
    ∀ i ∈ its, (∀ c, i = .flag c → spec c = some false) ∧ ∀ c v, i = .value c v → spec c = some true := by
  have hw : ∀ ws : List Bytes, ∀ i ∈ ws.map Item.word, (∀ c, i = .flag c → spec c = some false) ∧ ∀ c v, i = .value c v → spec c = some true := by
    intro ws i m
    obtain ⟨w, _, rfl⟩ := List.mem_map.mp m
    exact ⟨fun c h => (by cases h), fun c v h => (by cases h)⟩
  have hfl : ∀ {fs : Bytes}, (∀ c ∈ fs, spec c = some false) → ∀ i ∈ fs.map Item.flag,
      (∀ c, i = .flag c → spec c = some false) ∧ ∀ c v, i = .value c v → spec c = some true := by
    intro fs hf i m
    obtain ⟨w, mw, rfl⟩ := List.mem_map.mp m
    exact ⟨fun c h => (by cases h; exact hf _ mw), fun c v h => (by cases h)⟩
  induction n with
  | nil => intro i m; simp at m
  | rest ws => exact hw ws
  | word p h n ih => exact List.forall_mem_cons.mpr ⟨⟨fun c h => (by cases h), fun c v h => (by cases h)⟩, ih⟩
  | words p h => exact hw _
  | flags ne hf n ih => exact List.forall_mem_append.mpr ⟨hfl hf, ih⟩
  | joined hf hc hv n ih => exact List.forall_mem_append.mpr ⟨hfl hf, List.forall_mem_cons.mpr
      ⟨⟨fun c h => (by cases h), fun c v h => (by cases h; exact hc)⟩, ih⟩⟩
  | separate hf hc n ih => exact List.forall_mem_append.mpr ⟨hfl hf, List.forall_mem_cons.mpr
      ⟨⟨fun c h => (by cases h), fun c v h => (by cases h; exact hc)⟩, ih⟩⟩

/-! ### The options of `mdnsd` -/

theorem lastOf_cons (c : UInt8) (i : Item) (its : List Item) :
    lastOf c (i :: its) = (lastOf c its).or (match i with | .value c' v => if c' = c then some v else none | _ => none) := by
  unfold lastOf
  rw [List.filterMap_cons]
  split
  · rename_i h
    rw [h, Option.or_none]
  · rename_i b h
    rw [h, List.getLast?_cons]
    cases (List.filterMap _ its).getLast? <;> rfl

/-- What items make of the variables. -/
structure Sets (its : List Item) (o o' : Opts) : Prop where
  host : o'.hostnm = (lastOf 0x48 its).or o.hostnm
  iface : o'.ifname = (lastOf 0x69 its).or o.ifname
  ttl : o'.ttl = ((lastOf 0x74 its).map atoi).getD o.ttl
  background : o'.background = (o.background && !its.contains (.flag 0x6E))
  logging : o'.logging = o.logging - its.count (.flag 0x6E) + its.count (.flag 0x73)
  level : lastOf 0x6C its = none → o'.loglevel = o.loglevel
  levels : ∀ v, lastOf 0x6C its = some v → 0 ≤ (Log.setLevel 0 v).1 → o'.loglevel = (Log.setLevel 0 v).1

theorem opts_sets : ∀ (its : List Item) (o : Opts),
    (∀ i ∈ its, (∀ c, i = .flag c → mdnsdSpec c = some false) ∧ ∀ c v, i = .value c v → mdnsdSpec c = some true) →
    (∀ i ∈ its, i.good) → ∃ o', mdnsdOpts o (its.filterMap Item.got) = .inl o' ∧ Sets its o o'
  | [], o, _, _ => ⟨o, rfl, ⟨rfl, rfl, rfl, by simp, by simp, fun _ => rfl, fun v h => by cases h⟩⟩
  | i :: its, o, hf, hg => by
    have f := hf i (by simp)
    have g := hg i (by simp)
    have ih := fun o => opts_sets its o (fun j m => hf j (by simp [m])) fun j m => hg j (by simp [m])
    cases i with
    | word w =>
      obtain ⟨o', e, s⟩ := ih o
      refine ⟨o', e, ⟨?_, ?_, ?_, ?_, ?_, fun h => ?_, fun v h => ?_⟩⟩
      · rw [lastOf_cons]; simpa using s.host
      · rw [lastOf_cons]; simpa using s.iface
      · rw [lastOf_cons]; simpa using s.ttl
      · rw [s.background]; simp
      · rw [s.logging]; simp
      · rw [lastOf_cons] at h; exact s.level (by simpa using h)
      · rw [lastOf_cons] at h; exact s.levels v (by simpa using h)
    | flag c =>
      have next : ∀ o1, mdnsdOpt o (c, none) = .inl o1 → o1.hostnm = o.hostnm → o1.ifname = o.ifname → o1.ttl = o.ttl → o1.loglevel = o.loglevel →
          o1.background = (o.background && !(c == 0x6E)) → o1.logging = o.logging - (if c = 0x6E then 1 else 0) + (if c = 0x73 then 1 else 0) →
          ∃ o', mdnsdOpts o ((Item.flag c :: its).filterMap Item.got) = .inl o' ∧ Sets (.flag c :: its) o o' := by
        intro o1 e1 h1 h2 h3 h4 h5 h6
        obtain ⟨o', e, s⟩ := ih o1
        refine ⟨o', ?_, ⟨?_, ?_, ?_, ?_, ?_, fun h => ?_, fun v h => ?_⟩⟩
        · show mdnsdOpts o ((c, none) :: its.filterMap Item.got) = _
          rw [mdnsdOpts, e1]
          exact e
        · rw [lastOf_cons, ← h1]; simpa using s.host
        · rw [lastOf_cons, ← h2]; simpa using s.iface
        · rw [lastOf_cons, ← h3]; simpa using s.ttl
        · rw [s.background, h5, List.contains_cons, Bool.not_or, Bool.and_assoc]
          have : (c == 0x6E) = (Item.flag 0x6E == Item.flag c) := by
            rw [Bool.eq_iff_iff, beq_iff_eq, beq_iff_eq]
            exact ⟨fun h => by rw [h], fun h => by injection h with h; exact h.symm⟩
          rw [this]
        · rw [s.logging, h6, List.count_cons, List.count_cons]
          by_cases hc : c = 0x6E
          · subst hc; simp; omega
          · by_cases hd : c = 0x73
            · subst hd; simp; omega
            · simp [hc, hd]
        · rw [← h4]; rw [lastOf_cons] at h; exact s.level (by simpa using h)
        · rw [lastOf_cons] at h; exact s.levels v (by simpa using h)
      rcases g with rfl | rfl
      · exact next { o with background := false, logging := o.logging - 1 } rfl rfl rfl rfl rfl (by simp) (by simp)
      · exact next { o with logging := o.logging + 1 } rfl rfl rfl rfl rfl (by simp) (by simp)
    | value c v =>
      have next : ∀ o1, mdnsdOpt o (c, some v) = .inl o1 → o1.hostnm = (if c = 0x48 then some v else o.hostnm) →
          o1.ifname = (if c = 0x69 then some v else o.ifname) → o1.ttl = (if c = 0x74 then atoi v else o.ttl) →
          (c ≠ 0x6C → o1.loglevel = o.loglevel) → (c = 0x6C → 0 ≤ (Log.setLevel 0 v).1 → o1.loglevel = (Log.setLevel 0 v).1) →
          o1.background = o.background → o1.logging = o.logging →
          ∃ o', mdnsdOpts o ((Item.value c v :: its).filterMap Item.got) = .inl o' ∧ Sets (.value c v :: its) o o' := by
        intro o1 e1 h1 h2 h3 h4 h4' h5 h6
        obtain ⟨o', e, s⟩ := ih o1
        refine ⟨o', ?_, ⟨?_, ?_, ?_, ?_, ?_, fun h => ?_, fun v' h => ?_⟩⟩
        · show mdnsdOpts o ((c, some v) :: its.filterMap Item.got) = _
          rw [mdnsdOpts, e1]
          exact e
        · rw [lastOf_cons, s.host, h1]
          cases lastOf 0x48 its <;> by_cases hc : c = 0x48 <;> simp [hc]
        · rw [lastOf_cons, s.iface, h2]
          cases lastOf 0x69 its <;> by_cases hc : c = 0x69 <;> simp [hc]
        · rw [lastOf_cons, s.ttl, h3]
          cases lastOf 0x74 its <;> by_cases hc : c = 0x74 <;> simp [hc]
        · rw [s.background, h5]; simp
        · rw [s.logging, h6]; simp
        · rw [lastOf_cons] at h
          have h' := Option.or_eq_none_iff.mp h
          have hc : c ≠ 0x6C := fun hc => by have := h'.2; simp [hc] at this
          rw [s.level h'.1, h4 hc]
        · rw [lastOf_cons] at h
          cases hl : lastOf 0x6C its with
          | some w =>
            rw [hl] at h
            exact s.levels v' (by rw [hl]; simpa using h)
          | none =>
            rw [hl] at h
            by_cases hc : c = 0x6C
            · intro h0
              have : v = v' := by simpa [hc] using h
              subst this
              rw [s.level hl, h4' hc h0]
            · simp [hc] at h
      have hc := f.2 c v rfl
      unfold mdnsdSpec at hc
      split at hc
      · rename_i hq
        rcases hq with rfl | rfl | rfl | rfl
        · exact next { o with hostnm := some v } rfl rfl rfl rfl (fun _ => rfl) (fun h => absurd h (by decide)) rfl rfl
        · exact next { o with ifname := some v } rfl rfl rfl rfl (fun _ => rfl) (fun h => absurd h (by decide)) rfl rfl
        · have hn := g.1 rfl
          refine next { o with loglevel := (Log.setLevel o.loglevel v).2 } ?_ rfl rfl rfl (fun h => absurd rfl h) (fun _ h => ?_) rfl rfl
          · show (if (Log.setLevel 0 v).1 = -1 then _ else _) = _
            rw [if_neg hn]; rfl
          · show (if (Log.setLevel 0 v).1 ≥ 0 then (Log.setLevel 0 v).1 else o.loglevel) = _
            rw [if_pos h]
        · have hn := g.2 rfl
          refine next { o with ttl := atoi v } ?_ rfl rfl rfl (fun _ => rfl) (fun h => absurd h (by decide)) rfl rfl
          show (if atoi v < 1 ∨ atoi v > 255 then _ else _) = _
          rw [if_neg (by omega)]; rfl
      · split at hc <;> cases hc

theorem spec_dash : mdnsdSpec 0x2D = none := by decide

/-- If the loop ends, no option ended the program. -/
theorem opts_good : ∀ (gs : List Got) (o o' : Opts), mdnsdOpts o gs = .inl o' →
    (1 ≤ o.ttl ∧ o.ttl ≤ 255 → 1 ≤ o'.ttl ∧ o'.ttl ≤ 255) ∧ ∀ g ∈ gs, g.1 ≠ 0x3F ∧ g.1 ≠ 0x68 ∧ g.1 ≠ 0x76 ∧
      (g.1 = 0x6C → (Log.setLevel 0 (g.2.getD [])).1 ≠ -1) ∧ (g.1 = 0x74 → 1 ≤ atoi (g.2.getD []) ∧ atoi (g.2.getD []) ≤ 255)
  | [], o, o', h => ⟨by cases h; exact id, fun g m => by simp at m⟩
  | g :: gs, o, o', h => by
    rw [mdnsdOpts] at h
    cases e : mdnsdOpt o g with
    | inr n => rw [e] at h; cases h
    | inl o1 =>
      rw [e] at h
      obtain ⟨i1, i2⟩ := opts_good gs o1 o' h
      unfold mdnsdOpt at e
      dsimp only at e
      have key : (1 ≤ o.ttl ∧ o.ttl ≤ 255 → 1 ≤ o1.ttl ∧ o1.ttl ≤ 255) ∧ (g.1 ≠ 0x3F ∧ g.1 ≠ 0x68 ∧ g.1 ≠ 0x76 ∧
          (g.1 = 0x6C → (Log.setLevel 0 (g.2.getD [])).1 ≠ -1) ∧ (g.1 = 0x74 → 1 ≤ atoi (g.2.getD []) ∧ atoi (g.2.getD []) ≤ 255)) := by
        by_cases c1 : g.1 = 0x48
        · rw [if_pos c1] at e; cases e; exact ⟨id, by simp [c1]⟩
        rw [if_neg c1] at e
        by_cases c2 : g.1 = 0x68 ∨ g.1 = 0x3F
        · rw [if_pos c2] at e; cases e
        rw [if_neg c2] at e
        by_cases c3 : g.1 = 0x69
        · rw [if_pos c3] at e; cases e; exact ⟨id, by simp [c3]⟩
        rw [if_neg c3] at e
        by_cases c4 : g.1 = 0x6C
        · rw [if_pos c4] at e
          split at e
          · cases e
          · rename_i hn
            cases e; exact ⟨id, by simp [c4]; exact hn⟩
        rw [if_neg c4] at e
        by_cases c5 : g.1 = 0x6E
        · rw [if_pos c5] at e; cases e; exact ⟨id, by simp [c5]⟩
        rw [if_neg c5] at e
        by_cases c6 : g.1 = 0x73
        · rw [if_pos c6] at e; cases e; exact ⟨id, by simp [c6]⟩
        rw [if_neg c6] at e
        by_cases c7 : g.1 = 0x74
        · rw [if_pos c7] at e
          split at e
          · cases e
          · rename_i hn
            have hn : 1 ≤ atoi (g.2.getD []) ∧ atoi (g.2.getD []) ≤ 255 := by omega
            cases e; exact ⟨fun _ => hn, by simp [c7]; exact hn⟩
        rw [if_neg c7] at e
        by_cases c8 : g.1 = 0x76
        · rw [if_pos c8] at e; cases e
        rw [if_neg c8] at e
        cases e
        exact ⟨id, fun h => c2 (.inr h), fun h => c2 (.inl h), c8, fun h => absurd h c4, fun h => absurd h c7⟩
      exact ⟨fun h => i1 (key.1 h), List.forall_mem_cons.mpr ⟨key.2, i2⟩⟩

/-! ### Theorems -/

/-- Where service files are by default. -/
def etc : Bytes := "/etc/mdns.d".toUTF8.data.toList

/-- C93, what the options do: however they are written, the last host name, interface, log level and TTL given are used, the daemon
goes to the background unless there is a `-n`, and reads the service files of the first operand. -/
theorem C93_started {posix : Bool} {its : List Item} {args : List Bytes} (n : Written posix mdnsdSpec its args) (hg : ∀ i ∈ its, i.good) :
    ∃ o, mdnsd posix args = .runs o ((operands its).headD etc) (decide (its.count (.flag 0x6E) ≤ its.count (.flag 0x73))) ∧
      o.hostnm = lastOf 0x48 its ∧ o.ifname = lastOf 0x69 its ∧ o.ttl = ((lastOf 0x74 its).map atoi).getD 255 ∧
      (o.background = true ↔ .flag 0x6E ∉ its) ∧ (lastOf 0x6C its = none → o.loglevel = 5) ∧
      (∀ v, lastOf 0x6C its = some v → 0 ≤ (Log.setLevel 0 v).1 → o.loglevel = (Log.setLevel 0 v).1) := by
  obtain ⟨o, e, s⟩ := opts_sets its {} n.fits hg
  refine ⟨o, ?_, ?_, ?_, s.ttl, ?_, s.level, s.levels⟩
  · unfold mdnsd
    rw [n.getopt spec_dash]
    dsimp only
    rw [e, show etc = defaultPath by decide +kernel]
    have := s.logging
    dsimp only at this ⊢
    congr 1
    exact decide_eq_decide.mpr (by omega)
  · rw [s.host]; simp
  · rw [s.iface]; simp
  · rw [s.background]; simp

/-- C93, nothing is guessed: the daemon starts only if every word of the command line is an operand or an option with its argument, and
all of them are acceptable. -/
theorem C93_understood {posix : Bool} {args : List Bytes} {o : Opts} {path : Bytes} {sys : Bool}
    (h : mdnsd posix args = .runs o path sys) : ∃ its, Written posix mdnsdSpec its args ∧ ∀ i ∈ its, i.good := by
  unfold mdnsd at h
  dsimp only at h
  split at h
  · cases h
  · rename_i o' e
    have g := (opts_good _ _ _ e).2
    obtain ⟨its, n⟩ := written_of (posix := posix) (spec := mdnsdSpec) args.length args (Nat.le_refl _) fun x m => (g x m).1
    rw [n.getopt spec_dash] at g
    refine ⟨its, n, fun i m => ?_⟩
    have f := n.fits i m
    cases i with
    | word => trivial
    | flag c =>
      obtain ⟨g1, g2, g3, _⟩ := g (c, none) (List.mem_filterMap.mpr ⟨_, m, rfl⟩)
      have hc := f.1 c rfl
      unfold mdnsdSpec at hc
      split at hc
      · cases hc
      · split at hc
        · rename_i hq
          rcases hq with h' | h' | h' | h' | h'
          · exact absurd h' g2
          · exact .inl h'
          · exact .inr h'
          · exact absurd h' g3
          · exact absurd h' g1
        · cases hc
    | value c v => exact (g (c, some v) (List.mem_filterMap.mpr ⟨_, m, rfl⟩)).2.2.2

/-- C93, the TTL of the packets is always valid. -/
theorem C93_ttl {posix : Bool} {args : List Bytes} {o : Opts} {path : Bytes} {sys : Bool}
    (h : mdnsd posix args = .runs o path sys) : 1 ≤ o.ttl ∧ o.ttl ≤ 255 := by
  unfold mdnsd at h
  dsimp only at h
  split at h
  · cases h
  · rename_i o' e
    cases h
    exact (opts_good _ _ _ e).1 (by decide)

/-- C93, logging: in the background, and with `-s` also in the foreground, messages go to syslog.  Missing: `-n` more than once. -/
theorem C93_syslog_partial {posix : Bool} {its : List Item} {args : List Bytes} (n : Written posix mdnsdSpec its args) (hg : ∀ i ∈ its, i.good)
    (h1 : its.count (.flag 0x6E) ≤ 1) : ∃ o path sys, mdnsd posix args = .runs o path sys ∧
      (sys = true ↔ o.background = true ∨ .flag 0x73 ∈ its) := by
  obtain ⟨o, e, _, _, _, hb, _⟩ := C93_started n hg
  refine ⟨o, _, _, e, ?_⟩
  rw [decide_eq_true_iff, hb, ← List.count_eq_zero, ← List.count_pos_iff]
  omega

/-- C93: `-n -n -s` does not log to syslog, `-n -s` does (`src/mdnsd.c:345`: each `-n` counts). -/
theorem C93_syslog_counterexample (posix : Bool) :
    mdnsd posix [[0x2D, 0x6E], [0x2D, 0x6E], [0x2D, 0x73]] = .runs { background := false, logging := 0 } defaultPath false ∧
    mdnsd posix [[0x2D, 0x6E], [0x2D, 0x73]] = .runs { background := false } defaultPath true := by
  cases posix <;> decide +kernel

/-- C93: after an option it does not know (`-x`), or without the argument of one (`-t`), the daemon ends with the exit code 0, as if all was
well (`src/mdnsd.c:329`: `?` is what `getopt` returns for errors). -/
theorem C93_exit_counterexample (posix : Bool) : mdnsd posix [[0x2D, 0x78]] = .exits 0 ∧ mdnsd posix [[0x2D, 0x74]] = .exits 0 ∧
    mquery posix [[0x2D, 0x78]] = .inr 0 := by
  cases posix <;> decide +kernel

/-- C93: what is not a number is taken for one: `-t 5x` sets 5, `-l x` sets the log level 0. -/
theorem C93_number_counterexample (posix : Bool) : mdnsd posix [[0x2D, 0x74], [0x35, 0x78]] = .runs { ttl := 5 } defaultPath true ∧
    mdnsd posix [[0x2D, 0x6C], [0x78]] = .runs { loglevel := 0 } defaultPath true := by
  cases posix <;> decide +kernel

/-- C93: the help text (`src/mdnsd.c:284`) says that the TTL is 1 by default; it is 255. -/
theorem C93_default_counterexample (posix : Bool) : ∃ o, mdnsd posix [] = .runs o defaultPath true ∧ o.ttl = 255 :=
  ⟨{}, by cases posix <;> decide +kernel, rfl⟩

/-! ### Concrete cases -/

/-- `-ns -H host -i eth0 -t9 /srv -t 10`: the last TTL is used. -/
def Sample.items : List Item := [.flag 0x6E, .flag 0x73, .value 0x48 [0x68, 0x6F], .value 0x74 [0x39], .word [0x2F, 0x73], .value 0x74 [0x31, 0x30]]

theorem Sample.written : Written false mdnsdSpec Sample.items
    [[0x2D, 0x6E, 0x73, 0x48], [0x68, 0x6F], [0x2D, 0x74, 0x39], [0x2F, 0x73], [0x2D, 0x74], [0x31, 0x30]] :=
  .separate (fs := [0x6E, 0x73]) (by decide) (by decide) <| .joined (fs := []) (by decide) (by decide) (by decide) <|
    .word (.inr (by decide)) rfl <| .separate (fs := []) (by decide) (by decide) .nil

theorem Sample.good : ∀ i ∈ Sample.items, i.good := by
  simp only [Sample.items, List.forall_mem_cons, Item.good]
  refine ⟨.inl trivial, .inr trivial, ⟨fun h => absurd h (by decide), fun h => absurd h (by decide)⟩,
    ⟨fun h => absurd h (by decide), fun _ => by decide +kernel⟩, trivial, ⟨fun h => absurd h (by decide), fun _ => by decide +kernel⟩,
    fun i m => by simp at m⟩

example : ∃ o, mdnsd false [[0x2D, 0x6E, 0x73, 0x48], [0x68, 0x6F], [0x2D, 0x74, 0x39], [0x2F, 0x73], [0x2D, 0x74], [0x31, 0x30]] =
    .runs o [0x2F, 0x73] true ∧ o.ttl = 10 ∧ o.hostnm = some [0x68, 0x6F] := by
  obtain ⟨o, e, h1, _, h3, _⟩ := C93_started Sample.written Sample.good
  refine ⟨o, e.trans ?_, h3.trans (by decide +kernel), h1⟩
  rfl

example : ∃ o path sys, mdnsd false [[0x2D, 0x6E, 0x73, 0x48], [0x68, 0x6F], [0x2D, 0x74, 0x39], [0x2F, 0x73], [0x2D, 0x74], [0x31, 0x30]] =
    .runs o path sys ∧ (sys = true ↔ o.background = true ∨ .flag 0x73 ∈ Sample.items) :=
  C93_syslog_partial Sample.written Sample.good (by decide)

end Mdns.Opt
