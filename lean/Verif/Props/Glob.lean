import Verif.Model.Glob
import Verif.Lemmas.Ascii
import Verif.Props.Reload

/-!
# C97: which files are loaded
-/

namespace Mdns.Glob

open Mdns Mdns.Conf

/-! ### Specification -/

/-- The name of a service file: it ends with `.service` and is not hidden. -/
def IsService (n : Bytes) : Prop := n.head? ≠ (ascii ".").head? ∧ ∃ s, n = s ++ ascii ".service"

/-- Nothing in the path means something else in a pattern. -/
def Plain (p : Bytes) : Prop := (∀ c ∈ p, c ∉ ascii "*?[\\") ∧ p.head? ≠ (ascii "~").head?

/-! ### Names -/

theorem fits_lits (l s : Bytes) : fits (l.map .lit) s = true ↔ s = l := by
  induction l generalizing s with
  | nil => cases s <;> simp [fits]
  | cons a l ih => cases s with
    | nil => simp [fits]
    | cons d s => simp [fits, ih]; intro _; exact eq_comm

theorem somewhere_iff (f : Bytes → Bool) (s : Bytes) : somewhere f s = true ↔ ∃ a b, s = a ++ b ∧ f b = true := by
  induction s with
  | nil =>
    simp only [somewhere]
    constructor
    · exact fun h => ⟨[], [], rfl, h⟩
    · rintro ⟨a, b, e, h⟩
      cases b with
      | nil => exact h
      | cons _ _ => cases a <;> cases e
  | cons c s ih =>
    simp only [somewhere, Bool.or_eq_true, ih]
    constructor
    · rintro (h | ⟨a, b, rfl, h⟩)
      · exact ⟨[], _, rfl, h⟩
      · exact ⟨c :: a, b, rfl, h⟩
    · rintro ⟨a, b, e, h⟩
      cases a with
      | nil => left; rw [e]; exact h
      | cons x a => cases e; right; exact ⟨a, b, rfl, h⟩

theorem fnmatch_service (n : Bytes) : fnmatch (0x2A :: dotService) n = true ↔ IsService n := by
  have e : wilds (0x2A :: dotService).length (0x2A :: dotService) = .any :: dotService.map .lit := by decide
  have d : ascii ".service" = dotService := by decide
  have p : (ascii ".").head? = some 0x2E := by decide
  unfold fnmatch IsService
  rw [e, d, p]
  simp only [fits, List.head?_cons, Bool.and_eq_true, somewhere_iff, fits_lits, Bool.or_eq_true, decide_eq_true_eq,
    Option.some.injEq, reduceCtorEq, or_false, ne_eq]
  constructor
  · rintro ⟨h, a, b, e, rfl⟩; exact ⟨h, a, e⟩
  · rintro ⟨h, a, e⟩; exact ⟨h, a, _, e, rfl⟩

/-! ### Paths -/

theorem pieces_ne (p : Bytes) : pieces p ≠ [] := by
  cases p with
  | nil => simp [pieces]
  | cons c p => unfold pieces; split; · simp
                split <;> simp

theorem pieces_slash (a b : Bytes) : pieces (a ++ 0x2F :: b) = pieces a ++ pieces b := by
  induction a with
  | nil => simp [pieces]
  | cons c a ih =>
    simp only [List.cons_append, pieces, ih]
    split
    · rfl
    · cases h : pieces a with
      | nil => exact absurd h (pieces_ne a)
      | cons p ps => rfl

theorem pieces_mem {p q : Bytes} (h : q ∈ pieces p) : ∀ c ∈ q, c ∈ p := by
  induction p generalizing q with
  | nil => simp [pieces] at h; subst h; simp
  | cons c p ih =>
    unfold pieces at h
    split at h
    · rcases List.mem_cons.mp h with rfl | h
      · simp
      · exact fun x hx => .tail _ (ih h x hx)
    · split at h
      · rename_i e; exact absurd e (pieces_ne p)
      · rename_i r rs e
        rcases List.mem_cons.mp h with rfl | h
        · intro x hx
          rcases List.mem_cons.mp hx with rfl | hx
          · exact .head _
          · exact .tail _ (ih (by rw [e]; exact .head _) x hx)
        · exact fun x hx => .tail _ (ih (by rw [e]; exact .tail _ h) x hx)

theorem comps_pattern {path : Bytes} (h : path ≠ []) : comps (pattern path) = comps path ++ [0x2A :: dotService] := by
  have e : pieces (0x2A :: dotService) = [0x2A :: dotService] := by decide
  unfold comps pattern
  by_cases hl : path.getLast? = some 0x2F
  · obtain ⟨q, rfl⟩ : ∃ q, path = q ++ [0x2F] := by
      rw [List.getLast?_eq_some_iff] at hl; exact hl
    have e2 : pieces (q ++ [0x2F]) = pieces q ++ [[]] := pieces_slash q []
    simp only [hl, ne_eq, not_true_eq_false, if_false, List.append_nil, List.append_assoc, List.singleton_append, pieces_slash, e, e2]
    simp
  · simp only [ne_eq, hl, not_false_eq_true, if_true, List.append_assoc, List.singleton_append, pieces_slash, e]
    simp

theorem special_plain {c : Bytes} (h : ∀ x ∈ c, x ∉ ascii "*?[\\") : special c = false := by
  have e : ascii "*?[\\" = [0x2A, 0x3F, 0x5B, 0x5C] := by decide
  rw [e] at h
  induction c with
  | nil => rfl
  | cons a c ih =>
    have := h a (.head _)
    simp at this
    simp [special, this, ih (fun x hx => h x (.tail _ hx))]

theorem unescape_plain {c : Bytes} (h : ∀ x ∈ c, x ∉ ascii "*?[\\") : unescape c = c := by
  have e : ascii "*?[\\" = [0x2A, 0x3F, 0x5B, 0x5C] := by decide
  rw [e] at h
  induction c with
  | nil => rfl
  | cons a c ih =>
    cases c with
    | nil => rfl
    | cons b c =>
      have := h a (.head _)
      simp at this
      simp only [unescape, this, if_false]
      rw [ih (fun x hx => h x (.tail _ hx))]

theorem find_plain (f : Files) (cs rest : List Bytes) (at_ : List Bytes) (h : ∀ c ∈ cs, ∀ x ∈ c, x ∉ ascii "*?[\\") :
    find f at_ (cs ++ rest) = find f (at_ ++ cs) rest := by
  induction cs generalizing at_ with
  | nil => simp
  | cons c cs ih =>
    have hc := h c (.head _)
    simp only [List.cons_append, find, special_plain hc, unescape_plain hc]
    rw [if_neg (by simp), ih _ (fun d hd => h d (.tail _ hd))]
    simp

theorem flat_some {α β : Type} (g : α → β) (l : List α) :
    (l.mapM fun n => some [g n]).map List.flatten = some (l.map g) := by
  induction l with
  | nil => rfl
  | cons a l ih =>
    rw [List.mapM_cons]
    cases h : l.mapM fun n => some [g n] with
    | none => rw [h] at ih; cases ih
    | some r =>
      rw [h] at ih
      simp at ih
      simp [ih]

/-! ### The order -/

theorem leB_append (a x y : Bytes) : leB (a ++ x) (a ++ y) = leB x y := by
  induction a with
  | nil => rfl
  | cons c a ih => simp [leB, ih]

theorem leB_lt {x y : Bytes} (h : leB x y = true) (n : x ≠ y) : x < y := by
  induction x generalizing y with
  | nil => cases y with
    | nil => exact absurd rfl n
    | cons b y => exact List.nil_lt_cons ..
  | cons a x ih => cases y with
    | nil => simp [leB] at h
    | cons b y =>
      rw [List.cons_lt_cons_iff]
      simp [leB] at h
      rcases h with h | ⟨rfl, h⟩
      · exact .inl h
      · exact .inr ⟨rfl, ih h (fun e => n (by rw [e]))⟩

theorem leB_gt {x y : Bytes} (h : leB x y = false) : y < x := by
  induction x generalizing y with
  | nil => simp [leB] at h
  | cons a x ih => cases y with
    | nil => exact List.nil_lt_cons ..
    | cons b y =>
      rw [List.cons_lt_cons_iff]
      simp [leB] at h
      rcases Nat.lt_trichotomy b.toNat a.toNat with l | e | g
      · exact .inl l
      · have e := UInt8.toNat_inj.mp e
        exact .inr ⟨e, ih (h.2 e.symm)⟩
      · exact absurd h.1 (UInt8.not_le.mpr g)

theorem spell_snoc (p : List Bytes) (n : Bytes) : spell (p ++ [n]) = spell p ++ (0x2F :: n) := by
  induction p with
  | nil => simp [spell]
  | cons c p ih => simp [spell, ih]

def ins (n : Bytes) : List Bytes → List Bytes
  | [] => [n]
  | m :: l => if leB n m then n :: m :: l else m :: ins n l

def sortN : List Bytes → List Bytes
  | [] => []
  | n :: l => ins n (sortN l)

theorem insertB_map (p : List Bytes) (n : Bytes) (l : List Bytes) :
    insertB (p ++ [n]) (l.map (p ++ [·])) = (ins n l).map (p ++ [·]) := by
  induction l with
  | nil => rfl
  | cons m l ih =>
    have e : leB (spell (p ++ [n])) (spell (p ++ [m])) = leB n m := by
      rw [spell_snoc, spell_snoc, leB_append]; simp [leB]
    simp only [List.map_cons, insertB, ins, e]
    split
    · rfl
    · rw [ih]; rfl

theorem sortB_map (p : List Bytes) (l : List Bytes) : sortB (l.map (p ++ [·])) = (sortN l).map (p ++ [·]) := by
  induction l with
  | nil => rfl
  | cons n l ih => simp only [List.map_cons, sortB, ih, sortN, insertB_map]

theorem mem_ins (n m : Bytes) (l : List Bytes) : m ∈ ins n l ↔ m = n ∨ m ∈ l := by
  induction l with
  | nil => simp [ins]
  | cons a l ih =>
    unfold ins
    split
    · simp
    · simp only [List.mem_cons, ih]
      constructor
      · rintro (h | h | h) <;> simp [h]
      · rintro (h | h | h) <;> simp [h]

theorem mem_sortN (m : Bytes) (l : List Bytes) : m ∈ sortN l ↔ m ∈ l := by
  induction l with
  | nil => rfl
  | cons a l ih => simp [sortN, mem_ins, ih]

theorem ins_sorted (n : Bytes) (l : List Bytes) (hn : n ∉ l) (h : l.Pairwise (· < ·)) : (ins n l).Pairwise (· < ·) := by
  induction l with
  | nil => simp [ins]
  | cons a l ih =>
    have hp := List.pairwise_cons.mp h
    have na : n ≠ a := fun e => hn (by rw [e]; exact .head _)
    unfold ins
    split
    · rename_i hle
      refine List.pairwise_cons.mpr ⟨fun b hb => ?_, h⟩
      have hlt := leB_lt hle na
      rcases List.mem_cons.mp hb with rfl | hb
      · exact hlt
      · exact List.lt_trans hlt (hp.1 b hb)
    · rename_i hle
      refine List.pairwise_cons.mpr ⟨fun b hb => ?_, ih (fun hm => hn (.tail _ hm)) hp.2⟩
      rcases (mem_ins ..).mp hb with rfl | hb
      · exact leB_gt (by simpa using hle)
      · exact hp.1 b hb

theorem sortN_sorted {l : List Bytes} (h : l.Nodup) : (sortN l).Pairwise (· < ·) := by
  induction l with
  | nil => exact .nil
  | cons a l ih =>
    have := List.nodup_cons.mp h
    exact ins_sorted a _ (fun hm => this.1 ((mem_sortN ..).mp hm)) (ih this.2)

/-! ### The files of a directory -/

theorem head_tilde {p : Bytes} (h : p.head? ≠ (ascii "~").head?) (f : Files) : tilde f p = p := by
  have e : (ascii "~").head? = some 0x7E := by decide
  rw [e] at h
  unfold tilde
  split
  · simp at h
  · rfl

theorem pattern_head {path : Bytes} (h : path ≠ []) : (pattern path).head? = path.head? := by
  cases path with
  | nil => exact absurd rfl h
  | cons c p => rfl

theorem find_pattern (f : Files) {path : Bytes} (h : path ≠ []) (hp : Plain path) :
    find f (if (pattern path).head? = some 0x2F then [] else f.cwd) (comps (pattern path)) =
      find f (place f path) [0x2A :: dotService] := by
  rw [comps_pattern h, find_plain, pattern_head h]
  · unfold place
    split <;> rfl
  · intro c hc x hx
    exact hp.1 x (pieces_mem (List.mem_filter.mp hc).1 x hx)

/-- C97: a directory means the files in it whose name ends with `.service`, except hidden ones, each once and in the
order of their names.  If there are none this counts as an error.
Missing: paths with characters that mean something in a pattern (`C97_special_counterexample`, `C97_tilde_counterexample`). -/
theorem C97_directory_partial (f : Files) {path : Bytes} (hp : Plain path) (hne : path ≠ []) {names : List Bytes}
    (hd : f.isDir (place f path) = true) (hl : f.list (place f path) = some names) (nd : names.Nodup) :
    ∃ ns : List Bytes, (∀ n, n ∈ ns ↔ n ∈ names ∧ IsService n) ∧ ns.Pairwise (· < ·) ∧
      source f path = if ns = [] then .missing else .files (ns.map fun n => f.read (place f path ++ [n])) := by
  let l := names.filter (fnmatch (0x2A :: dotService))
  refine ⟨sortN l, fun n => ?_, sortN_sorted (nd.sublist List.filter_sublist), ?_⟩
  · rw [mem_sortN, List.mem_filter, fnmatch_service]
  · have hs : stat f path = some true := by unfold stat; rw [if_neg hne, if_pos hd]
    have hsp : special (0x2A :: dotService) = true := by decide
    have hf : find f (place f path) [0x2A :: dotService] = some (l.map (place f path ++ [·])) := by
      simp only [find, hsp, if_true, hl]
      exact flat_some _ _
    have hg : glob f (pattern path) = match l.map (place f path ++ [·]) with
        | [] => none
        | x :: xs => some (sortB (x :: xs)) := by
      unfold glob
      simp only
      rw [head_tilde (by rw [pattern_head hne]; exact hp.2), find_pattern f hne hp, hf]
      cases l.map (place f path ++ [·]) <;> rfl
    unfold source
    rw [hs]
    simp only [hg]
    have hz : sortN l = [] ↔ l = [] := by
      constructor
      · intro e
        cases h : l with
        | nil => rfl
        | cons a t =>
          have : a ∈ sortN l := (mem_sortN ..).mpr (by rw [h]; exact .head _)
          rw [e] at this; cases this
      · intro e; rw [e]; rfl
    cases h : l with
    | nil => rw [if_pos]; · rfl
             · rfl
    | cons a t =>
      rw [if_neg (by rw [← h, hz, h]; simp)]
      simp only [List.map_cons]
      have := sortB_map (place f path) (a :: t)
      simp only [List.map_cons] at this
      rw [this]
      simp [List.map_map, Function.comp_def]

/-- C97: the services found in a directory are those of its service files. -/
theorem C97_services_partial (f : Files) {path : Bytes} (hp : Plain path) (hne : path ≠ []) {names : List Bytes}
    (hd : f.isDir (place f path) = true) (hl : f.list (place f path) = some names) (nd : names.Nodup) (s : SRec) :
    s ∈ (source f path).services ↔
      ∃ n b, n ∈ names ∧ IsService n ∧ f.read (place f path ++ [n]) = some b ∧ parse b = .ok s := by
  obtain ⟨ns, hm, _, e⟩ := C97_directory_partial f hp hne hd hl nd
  have hsv : (source f path).services = services (ns.map fun n => f.read (place f path ++ [n])) := by
    rw [e]
    split
    · rename_i h; rw [h]; rfl
    · rfl
  rw [hsv]
  simp only [services, List.mem_filterMap, List.mem_map]
  constructor
  · rintro ⟨o, ⟨n, hn, rfl⟩, h⟩
    cases hr : f.read (place f path ++ [n]) with
    | none => rw [hr] at h; cases h
    | some b =>
      rw [hr] at h
      simp only [Option.bind_some] at h
      split at h
      · rename_i s' hs'; cases h
        exact ⟨n, b, ((hm n).mp hn).1, ((hm n).mp hn).2, hr, hs'⟩
      · cases h
  · rintro ⟨n, b, h1, h2, h3, h4⟩
    exact ⟨_, ⟨n, (hm n).mpr ⟨h1, h2⟩, rfl⟩, by rw [h3]; simp [h4]⟩

/-- C97: reading the configuration advertises every service file of the directory.  Assumed are names that fit, different
names of the services, and that no other name falls into the hash chain of the name of a PTR record (as in C77). -/
theorem C97_advertised_partial (f : Files) {path : Bytes} (hp : Plain path) (hne : path ≠ []) {names : List Bytes}
    (hd : f.isDir (place f path) = true) (hl : f.list (place f path) = some names) (nd : names.Nodup)
    (hr : ∀ n ∈ names, IsService n → ∀ b, f.read (place f path ++ [n]) = some b → ∃ s, parse b = .ok s)
    {env : Env} {d : D Ptrs} (h : Reach env d) (cb : Nat) (base : Bytes) (hostid : Nat)
    (addrs : Nat → Option (List Ip4 × List Ip6))
    (fit : ∀ s ∈ (source f path).services, (instanceName (s.nameOf (hostname base hostid)) s.typeOf).length ≤ 255 ∧
      ∀ a, s.cname = some a → (rooted a).length ≤ 255)
    (inst : ((source f path).services.map fun s => instanceName (s.nameOf (hostname base hostid)) s.typeOf).Nodup)
    (clash : Conf.NoClash (hostname base hostid) (source f path).services)
    (alias : ∀ s ∈ (source f path).services, ∀ s' ∈ (source f path).services, ∀ a a', s.cname = some a → s'.cname = some a' →
      rooted a = rooted a' → hostOf (hostname base hostid) s = hostOf (hostname base hostid) s') :
    ∃ d', reload cb base hostid addrs (source f path) d = .ok ((), d') ∧
      ∀ n ∈ names, IsService n → ∀ b s, f.read (place f path ++ [n]) = some b → parse b = .ok s →
        Advertised d' (s.nameOf (hostname base hostid)) s.typeOf (hostOf (hostname base hostid) s) s.port s.txtData s.cname := by
  have hrd : (source f path).Readable := by
    obtain ⟨ns, hm, _, e⟩ := C97_directory_partial f hp hne hd hl nd
    rw [e]
    split
    · trivial
    · intro b hb
      obtain ⟨n, hn, hb⟩ := List.mem_map.mp hb
      exact hr n ((hm n).mp hn).1 ((hm n).mp hn).2 b hb
  obtain ⟨d', e, ad⟩ := C77_advertised_partial h cb base hostid addrs _ hrd fit inst clash alias
  exact ⟨d', e, fun n hn hs b s hb hps => ad s ((C97_services_partial f hp hne hd hl nd s).mpr ⟨n, b, hn, hs, hb, hps⟩)⟩

/-- C97: a path to a file means this file alone, whatever its name. -/
theorem C97_file (f : Files) {path : Bytes} (hne : path ≠ []) (hs : path.getLast? ≠ (ascii "/").head?)
    (ht : f.there (place f path) = true) (hd : f.isDir (place f path) = false) :
    source f path = .files [f.read (place f path)] := by
  have e : (ascii "/").head? = some 0x2F := by decide
  rw [e] at hs
  unfold source stat
  simp [hne, hd, ht, hs]

/-- C97: if there is nothing at the path, or a directory that cannot be read, nothing is loaded and this is an error. -/
theorem C97_missing {f : Files} {path : Bytes}
    (h : (f.there (place f path) = false ∧ f.isDir (place f path) = false) ∨ path = [] ∨
      (f.isDir (place f path) = true ∧ f.list (place f path) = none ∧ Plain path))
    {Q : Type} [QOps Q] (cb : Nat) (base : Bytes) (hostid : Nat) (addrs : Nat → Option (List Ip4 × List Ip6)) (d : D Q) :
    confInit cb base hostid addrs (source f path) d = .ok (1, d) := by
  have e : source f path = .missing := by
    rcases h with ⟨h1, h2⟩ | h | ⟨h1, h2, h3⟩
    · unfold source stat; simp [h1, h2]
    · unfold source stat; simp [h]
    · by_cases hne : path = []
      · unfold source stat; simp [hne]
      have hsp : special (0x2A :: dotService) = true := by decide
      have hg : glob f (pattern path) = none := by
        unfold glob
        simp only
        rw [head_tilde (by rw [pattern_head hne]; exact h3.2), find_pattern f hne h3]
        simp [find, hsp, h1, h2]
      unfold source stat
      simp [hne, h1, hg]
  rw [e]
  rfl

theorem find_cwd (f : Files) (c : List Bytes) (cs : List Bytes) (at_ : List Bytes) :
    find { f with cwd := c } at_ cs = find f at_ cs := by
  induction cs generalizing at_ with
  | nil => rfl
  | cons p cs ih => simp only [find, ih]

/-- C97: a path from the root means the same in the foreground and in the background.
Missing: other paths (`C97_relative_counterexample`). -/
theorem C97_background_partial (f : Files) (bg : Bool) {path : Bytes} (h : path.head? = (ascii "/").head?) :
    source (started bg f) path = source f path := by
  have e : (ascii "/").head? = some 0x2F := by decide
  rw [e] at h
  cases bg with
  | false => rfl
  | true =>
    have hne : path ≠ [] := by intro e; rw [e] at h; cases h
    have hp : place (started true f) path = place f path := by simp [place, h]
    have hs : stat (started true f) path = stat f path := by unfold stat; rw [hp]; rfl
    have ht : ∀ g, tilde g (pattern path) = pattern path := fun g =>
      head_tilde (by rw [pattern_head hne, h]; decide) g
    have hg : glob (started true f) (pattern path) = glob f (pattern path) := by
      unfold glob
      simp only [ht, pattern_head hne, h, if_true]
      rw [show started true f = { f with cwd := [] } from rfl, find_cwd]
    unfold source
    rw [hs, hg, hp]
    rfl

/-- C97: the pattern with its end fits in the buffer for it, `src/conf.c:315`. -/
theorem C97_pattern_fits (path : Bytes) : (pattern path).length + 1 ≤ path.length + 64 := by
  unfold pattern
  split <;> simp [dotService]

/-! ### Where this fails -/

namespace Sample

/-- `/s[1]` and `/s1` are directories, each with a service file. -/
def brackets : Files where
  there p := p = [] ∨ p = [ascii "s[1]"] ∨ p = [ascii "s1"]
  isDir p := p = [] ∨ p = [ascii "s[1]"] ∨ p = [ascii "s1"]
  list p := if p = [] then some [ascii ".", ascii "..", ascii "s1", ascii "s[1]"]
    else if p = [ascii "s[1]"] then some [ascii ".", ascii "..", ascii "a.service"]
    else if p = [ascii "s1"] then some [ascii ".", ascii "..", ascii "b.service"]
    else none
  read p := if p = [ascii "s[1]", ascii "a.service"] then some (ascii "name a\n")
    else if p = [ascii "s1", ascii "b.service"] then some (ascii "name b\n") else none
  cwd := []
  home _ := none

/-- `/etc/m.d` with two service files, a hidden one and another one; the current directory is `/etc`.  `/root` is the home
directory; in `/etc/~` and in `/root` there is a service file as well. -/
def etc : Files where
  there p := p = [] ∨ p = [ascii "etc"] ∨ p = [ascii "etc", ascii "m.d"] ∨ p = [ascii "etc", ascii "~"] ∨ p = [ascii "root"]
  isDir p := p = [] ∨ p = [ascii "etc"] ∨ p = [ascii "etc", ascii "m.d"] ∨ p = [ascii "etc", ascii "~"] ∨ p = [ascii "root"]
  list p := if p = [ascii "etc", ascii "m.d"] then
      some [ascii ".", ascii "..", ascii "b.service", ascii ".c.service", ascii "a.service", ascii "a.service~"]
    else if p = [ascii "etc", ascii "~"] then some [ascii ".", ascii "..", ascii "t.service"]
    else if p = [ascii "root"] then some [ascii ".", ascii "..", ascii "h.service"]
    else none
  read p := if p = [ascii "etc", ascii "m.d", ascii "a.service"] then some (ascii "name a\n")
    else if p = [ascii "etc", ascii "m.d", ascii "b.service"] then some (ascii "name b\n")
    else if p = [ascii "etc", ascii "~", ascii "t.service"] then some (ascii "name t\n")
    else if p = [ascii "root", ascii "h.service"] then some (ascii "name h\n")
    else none
  cwd := [ascii "etc"]
  home u := if u = [] then some (ascii "/root") else none

instance (n : Bytes) : Decidable (IsService n) :=
  decidable_of_iff (fnmatch (0x2A :: dotService) n = true) (fnmatch_service n)

instance (p : Bytes) : Decidable (Plain p) := by unfold Plain; infer_instance

/-- The hypotheses of `C97_directory_partial` and `C97_background_partial` are met, also with `/` at the end; the two files are
loaded in order. -/
example : Plain (ascii "/etc/m.d") ∧ etc.isDir (place etc (ascii "/etc/m.d")) = true ∧
    (∃ l, etc.list (place etc (ascii "/etc/m.d")) = some l ∧ l.Nodup) ∧
    (∃ l, source etc (ascii "/etc/m.d/") = .files l ∧ l = [some (ascii "name a\n"), some (ascii "name b\n")]) :=
  ⟨by decide +kernel, by decide +kernel, ⟨_, rfl, by decide +kernel⟩, ⟨_, rfl, by decide +kernel⟩⟩

example : IsService (ascii "a.service") ∧ ¬ IsService (ascii ".c.service") ∧ ¬ IsService (ascii "a.service~") ∧
    ¬ IsService (ascii ".service") := by decide +kernel

/-- `/d` is a directory with the files of the example of C77. -/
def shelf : Files where
  there p := p = [ascii "d"]
  isDir p := p = [ascii "d"]
  list p := if p = [ascii "d"] then some [ascii "web.service", ascii ".", ascii "..", ascii "ssh.service", ascii "vpn.service"] else none
  read p := if p = [ascii "d", ascii "ssh.service"] then some Conf.Sample.fileSsh
    else if p = [ascii "d", ascii "web.service"] then some Conf.Sample.fileWeb else none
  cwd := []
  home _ := none

theorem shelf_source : source shelf (ascii "/d") = Conf.Sample.dir := rfl

open Mdns.Conf.Sample Mdns.Sample in
/-- C97: the host reads its configuration again, from this directory. -/
example : ∃ d', reload 0 nas 1 (fun _ => some ([ipA], [])) (source shelf (ascii "/d")) before = .ok ((), d') ∧
    ∀ n ∈ [ascii "web.service", ascii ".", ascii "..", ascii "ssh.service", ascii "vpn.service"], IsService n →
      ∀ b s, shelf.read ([ascii "d"] ++ [n]) = some b → parse b = .ok s →
        Advertised d' (s.nameOf (hostname nas 1)) s.typeOf (hostOf (hostname nas 1) s) s.port s.txtData s.cname := by
  have hr : ∀ n ∈ [ascii "web.service", ascii ".", ascii "..", ascii "ssh.service", ascii "vpn.service"], IsService n →
      ∀ b, shelf.read ([ascii "d"] ++ [n]) = some b → ∃ s, parse b = .ok s := by
    intro n hn hs b hb
    have hd : dir.Readable := dir_readable
    have hc : ∀ n ∈ [ascii "web.service", ascii ".", ascii "..", ascii "ssh.service", ascii "vpn.service"],
        ∀ b ∈ shelf.read ([ascii "d"] ++ [n]), b = fileSsh ∨ b = fileWeb := by decide +kernel
    rcases hc n hn b hb with rfl | rfl
    · exact ⟨_, parse_ssh⟩
    · exact ⟨_, parse_web⟩
  exact C97_advertised_partial shelf (path := ascii "/d") (by decide +kernel) (by decide +kernel) (by decide +kernel) rfl
    (by decide +kernel) hr before_reach 0 nas 1 (fun _ => some ([ipA], []))
    (by
      rw [shelf_source, nas_name, dir_services]
      intro s m
      simp only [List.mem_cons, List.not_mem_nil, or_false] at m
      rcases m with rfl | rfl
      · exact ⟨by decide, fun a h => by cases h⟩
      · exact ⟨by decide, fun a h => by cases h; decide⟩)
    (by rw [shelf_source, nas_name, dir_services]; decide +kernel) (by rw [shelf_source]; exact dir_clash)
    (by
      rw [shelf_source, dir_services]
      intro s m s' m' a a' h h' _
      simp only [List.mem_cons, List.not_mem_nil, or_false] at m m'
      rcases m with rfl | rfl
      · cases h
      · rcases m' with rfl | rfl
        · cases h'
        · rfl)

end Sample

open Sample

/-- C97: the files of another directory are loaded if the name of the directory is a pattern. -/
theorem C97_special_counterexample : ∃ f path names, f.isDir (place f path) = true ∧ f.list (place f path) = some names ∧
    (∃ n ∈ names, IsService n ∧ ∃ b s, f.read (place f path ++ [n]) = some b ∧ parse b = .ok s ∧
      s ∉ (source f path).services) ∧
    ∃ s ∈ (source f path).services, ∀ n ∈ names, ∀ b, f.read (place f path ++ [n]) = some b → parse b ≠ .ok s := by
  refine ⟨brackets, ascii "/s[1]", _, by decide +kernel, rfl, ⟨ascii "a.service", by decide +kernel, by decide +kernel,
    ascii "name a\n", { name := some (ascii "a") }, by decide +kernel, by decide +kernel, ?_⟩,
    { name := some (ascii "b") }, ?_, ?_⟩
  · decide +kernel
  · decide +kernel
  · intro n hn b hb
    have : ∀ n ∈ [ascii ".", ascii "..", ascii "a.service"], ∀ b ∈ brackets.read (place brackets (ascii "/s[1]") ++ [n]),
        parse b ≠ .ok { name := some (ascii "b") } := by decide +kernel
    exact this n hn b hb

/-- C97: a path in the home directory written with a tilde is not found: `stat` does not know the tilde.  And where there is a
directory of this name, the files of the home directory are loaded instead of its own. -/
theorem C97_tilde_counterexample :
    (∃ f, f.home [] = some (ascii "/root") ∧ f.isDir [ascii "root"] = true ∧
      (∃ l, source f (ascii "/root") = .files l ∧ l ≠ []) ∧ source f (ascii "~/") = .missing) ∧
    ∃ f, f.isDir (place f (ascii "~")) = true ∧ (∃ names, f.list (place f (ascii "~")) = some names ∧ ascii "t.service" ∈ names) ∧
      f.read (place f (ascii "~") ++ [ascii "t.service"]) = some (ascii "name t\n") ∧
      ∃ l, source f (ascii "~") = .files l ∧ l = [some (ascii "name h\n")] := by
  refine ⟨⟨{ etc with cwd := [] }, rfl, by decide +kernel, ⟨_, rfl, by decide +kernel⟩, rfl⟩, etc, by decide +kernel,
    ⟨_, rfl, by decide +kernel⟩, by decide +kernel, _, rfl, by decide +kernel⟩

/-- C97: in the background a path from the current directory is not found. -/
theorem C97_relative_counterexample : ∃ f path l, Plain path ∧ source (started false f) path = .files l ∧
    l = [some (ascii "name a\n"), some (ascii "name b\n")] ∧ source (started true f) path = .missing :=
  ⟨etc, ascii "m.d", _, by decide +kernel, rfl, by decide +kernel, rfl⟩

/-- `/d` is a directory with nothing but a directory `old.service` in it. -/
def Sample.folder : Files where
  there p := p = [ascii "d"] ∨ p = [ascii "d", ascii "old.service"]
  isDir p := p = [ascii "d"] ∨ p = [ascii "d", ascii "old.service"]
  list p := if p = [ascii "d"] then some [ascii ".", ascii "..", ascii "old.service"] else some [ascii ".", ascii ".."]
  read _ := some []
  cwd := []
  home _ := none

/-- C97: a directory whose name ends with `.service` is published as a web server of the host, on port 0. -/
theorem C97_folder_counterexample : ∃ f path n, f.isDir (place f path ++ [n]) = true ∧
    (source f path).services = [({} : SRec)] ∧ ({} : SRec).typeOf = ascii "_http._tcp" ∧ ({} : SRec).port = 0 :=
  ⟨folder, ascii "/d", ascii "old.service", by decide +kernel, by decide +kernel, by decide +kernel, by decide +kernel⟩

end Mdns.Glob
