import Verif.Model.MqueryRun
import Verif.Props.SdTxt
import Verif.Props.MqueryOut
import Verif.Props.MqueryMain
import Verif.Props.Origin
import Verif.Lemmas.Grammar

/-!
# Where the tables of `mquery` come from
-/

namespace Mdns.Mquery

open Mdns.CLib

/-! ### TXT records -/

/-- The strings of TXT data: a length byte and as many bytes. -/
def txtStrings : Bytes → List Bytes
  | [] => []
  | c :: rest => if rest.length < c.toNat then [] else rest.take c.toNat :: txtStrings (rest.drop c.toNat)
termination_by b => b.length
decreasing_by simp; omega

/-- TXT data has the entry `k=v`. -/
def TxtEntry (data k v : Bytes) : Prop := ∃ s ∈ txtStrings data, cstr s = k ++ 0x3D :: v

theorem split_eq {key : Bytes} (h : (SdTxt.splitEq key).2 ≠ []) : key = (SdTxt.splitEq key).1 ++ 0x3D :: (SdTxt.splitEq key).2 := by
  unfold SdTxt.splitEq at *
  dsimp only at *
  have e := List.takeWhile_append_dropWhile (p := (· != (0x3D : UInt8))) (l := key)
  cases hd : key.dropWhile (· != 0x3D) with
  | nil => rw [hd] at h; exact absurd rfl h
  | cons x r =>
    have hx : x = 0x3D := by
      have := List.head?_dropWhile_not (p := (· != (0x3D : UInt8))) (l := key)
      rw [hd] at this
      simpa using this
    subst hx
    rw [List.drop_succ_cons, List.drop_zero, ← hd]
    exact e.symm

theorem of_takeWhile {p : UInt8 → Bool} {x : UInt8} : ∀ {l : Bytes}, x ∈ l.takeWhile p → p x = true
  | [], h => by cases h
  | y :: l, h => by
    rw [List.takeWhile_cons] at h
    split at h
    · rename_i hy
      rcases List.mem_cons.mp h with rfl | h
      · exact hy
      · exact of_takeWhile h
    · cases h

theorem cstr_sub {a b : Bytes} (h : ∀ x ∈ a, x ∈ cstr b) : cstr a = a := by
  apply takeWhile_self
  intro x hx
  have := h x hx
  unfold cstr at this
  exact of_takeWhile (p := (· != 0)) this

theorem txtLoop_get (k : Bytes) (v : Xht.Obj) (hv : v.str ≠ []) : ∀ (n : Nat) (t t' : Xht.Table) (mem : Bytes) (len : Nat), len ≤ n → Xht.Inv t →
    SdTxt.txtLoop t mem len = .ok t' → Xht.get t' k = some v → Xht.get t k = some v ∨ TxtEntry mem k v.str := by
  intro n
  induction n with
  | zero =>
    intro t t' mem len hl hi e hg
    obtain rfl : len = 0 := by omega
    rw [SdTxt.txtLoop.eq_def] at e
    simp only [if_true] at e
    cases e
    exact .inl hg
  | succ n ih =>
    intro t t' mem len hl hi e hg
    rw [SdTxt.txtLoop.eq_def] at e
    split at e
    · cases e
      exact .inl hg
    · rename_i h0
      cases mem with
      | nil => cases e
      | cons c rest =>
        dsimp only at e
        split at e
        · cases e
          exact .inl hg
        · split at e
          · cases e
            exact .inl hg
          · split at e
            · cases e
            · rename_i hc h1 h2
              have := ih _ t' _ _ (by omega) (Xht.inv_store hi _ _) e hg
              rcases this with h | ⟨s, hs, hk⟩
              · rw [Xht.get_store hi] at h
                dsimp only at h
                split at h
                · exact .inl h
                · split at h
                  · rename_i hkk
                    right
                    refine ⟨rest.take c.toNat, ?_, ?_⟩
                    · rw [txtStrings, if_neg h2]
                      exact List.mem_cons_self ..
                    · have hv' := congrArg (fun o => (o.map (·.str)).getD []) h
                      simp only [Option.map_some, Option.getD_some] at hv'
                      have hne : (SdTxt.splitEq (cstr (rest.take c.toNat))).2 ≠ [] := by
                        intro h
                        rw [h] at hv'
                        exact hv hv'.symm
                      have hsp := split_eq hne
                      have e1 : cstr (SdTxt.splitEq (cstr (rest.take c.toNat))).1 = (SdTxt.splitEq (cstr (rest.take c.toNat))).1 :=
                        cstr_sub (b := rest.take c.toNat) fun x hx => by rw [hsp]; exact List.mem_append_left _ hx
                      have e2 : cstr (SdTxt.splitEq (cstr (rest.take c.toNat))).2 = (SdTxt.splitEq (cstr (rest.take c.toNat))).2 :=
                        cstr_sub (b := rest.take c.toNat) fun x hx => by
                          rw [hsp]; exact List.mem_append_right _ (List.mem_cons_of_mem _ hx)
                      rw [e1] at hkk
                      rw [e2] at hv'
                      rw [← hkk, ← hv']
                      exact hsp
                  · exact .inl h
              · refine .inr ⟨s, ?_, hk⟩
                rw [txtStrings, if_neg h2]
                exact List.mem_cons_of_mem _ hs

theorem txt2sd_get {data k : Bytes} {x : Xht.Table} {v : Xht.Obj} (hv : v.str ≠ []) (e : SdTxt.txt2sd data data.length = .ok (some x))
    (hg : Xht.get x k = some v) : TxtEntry data k v.str := by
  unfold SdTxt.txt2sd at e
  split at e
  · cases e
  · split at e
    · cases e
    · split at e
      · cases e
      · split at e
        · rename_i c _ _ t he
          cases e
          rcases txtLoop_get k v hv _ _ _ _ _ (Nat.le_refl _) (Xht.inv_new 23 (by decide)) he hg with h | h
          · have : Xht.get (Xht.new 23) k = none := by simp [Xht.get_eq, Xht.lookup, Xht.new, Xht.keyIs]
            rw [this] at h
            cases h
          · exact h
        · cases e

/-! ### The tables -/

/-- A device and its addresses, and the answers they come from. -/
structure DevOf (np : Ntop) (P : Answer → Prop) (d : Dev) : Prop where
  name : ∃ a, P a ∧ (a.type = 1 ∨ a.type = 28) ∧ a.name.take 255 = d.hostname
  addrs : ∀ x ∈ d.addrs, ∃ a, P a ∧ a.name.take 255 = d.hostname ∧ ((a.type = 1 ∧ x = np.v4 a.ip) ∨ (a.type = 28 ∧ x = np.v6 a.ip6))

/-- A service and what is known of it, and the answers it comes from. -/
structure InstOf (P : Answer → Prop) (i : Inst) : Prop where
  name : ∃ a, P a ∧ ((a.type = 12 ∧ ∃ n, a.rdname = some n ∧ n.take 255 = i.iname) ∨
    ((a.type = 33 ∨ a.type = 16) ∧ a.name.take 255 = i.iname))
  host : i.hostname ≠ [] → ∃ a n, P a ∧ a.type = 33 ∧ a.name.take 255 = i.iname ∧ a.rdname = some n ∧ n.take 255 = i.hostname ∧
    a.port = i.port
  bare : i.hostname = [] → i.port = 0
  product : i.product ≠ [] → ∃ a v, P a ∧ a.type = 16 ∧ a.name.take 255 = i.iname ∧ TxtEntry (a.rdata.getD []) kwProduct v ∧
    v.take 63 = i.product
  version : i.version ≠ [] → ∃ a v, P a ∧ a.type = 16 ∧ a.name.take 255 = i.iname ∧ TxtEntry (a.rdata.getD []) kwVersion v ∧
    v.take 63 = i.version

/-- Both tables. -/
structure TabOf (np : Ntop) (P : Answer → Prop) (t : Tables) : Prop where
  devs : ∀ d ∈ t.devices, DevOf np P d
  insts : ∀ i ∈ t.instances, InstOf P i

theorem mem_modify {α : Type} {l : List α} {i : Nat} {f : α → α} {x : α} (h : x ∈ l.modify i f) :
    x ∈ l ∨ ∃ y, l[i]? = some y ∧ x = f y := by
  obtain ⟨j, hj⟩ := List.mem_iff_getElem?.mp h
  rw [List.getElem?_modify] at hj
  by_cases e : i = j
  · subst e
    right
    cases hy : l[i]? with
    | none => rw [hy] at hj; simp at hj
    | some y =>
      rw [hy] at hj
      simp at hj
      exact ⟨y, rfl, hj.symm⟩
  · left
    simp [e] at hj
    exact List.mem_iff_getElem?.mpr ⟨j, hj⟩

theorem mem_withInst {l : List Inst} {n : Bytes} {f : Inst → Inst} {x : Inst} (h : x ∈ withInst l n f) :
    x ∈ l ∨ (∃ y ∈ l, y.iname = n ∧ x = f y) ∨ x = f { iname := strlcpy n 256 } := by
  unfold withInst at h
  split at h
  · rename_i i hi
    rcases mem_modify h with h | ⟨y, hy, rfl⟩
    · exact .inl h
    · refine .inr (.inl ⟨y, List.mem_iff_getElem?.mpr ⟨i, hy⟩, ?_, rfl⟩)
      obtain ⟨h1, h2, _⟩ := List.findIdx?_eq_some_iff_getElem.mp hi
      rw [List.getElem?_eq_getElem h1] at hy
      cases hy
      simpa using h2
  · rcases List.mem_cons.mp h with h | h
    · exact .inr (.inr h)
    · exact .inl h

theorem mem_withDev {l : List Dev} {n : Bytes} {f : Dev → Dev} {x : Dev} (h : x ∈ withDev l n f) :
    x ∈ l ∨ (∃ y ∈ l, y.hostname = n ∧ x = f y) ∨ x = f { hostname := strlcpy n 256 } := by
  unfold withDev at h
  split at h
  · rename_i i hi
    rcases mem_modify h with h | ⟨y, hy, rfl⟩
    · exact .inl h
    · refine .inr (.inl ⟨y, List.mem_iff_getElem?.mpr ⟨i, hy⟩, ?_, rfl⟩)
      obtain ⟨h1, h2, _⟩ := List.findIdx?_eq_some_iff_getElem.mp hi
      rw [List.getElem?_eq_getElem h1] at hy
      cases hy
      simpa using h2
  · rcases List.mem_cons.mp h with h | h
    · exact .inr (.inr h)
    · exact .inl h

variable {np : Ntop} {P : Answer → Prop}

theorem DevOf.short {d : Dev} (h : DevOf np P d) : d.hostname.take 255 = d.hostname := by
  obtain ⟨⟨a, _, _, e⟩, _⟩ := h
  rw [← e, List.take_take]
  rfl

theorem InstOf.short {i : Inst} (h : InstOf P i) : i.iname.take 255 = i.iname := by
  obtain ⟨a, _, ⟨_, n, _, e⟩ | ⟨_, e⟩⟩ := h.name
  · rw [← e, List.take_take]; rfl
  · rw [← e, List.take_take]; rfl

theorem DevOf.add {d : Dev} (h : DevOf np P d) {x : Bytes} (hx : x.length ≤ 45)
    (hp : ∃ a, P a ∧ a.name.take 255 = d.hostname ∧ ((a.type = 1 ∧ x = np.v4 a.ip) ∨ (a.type = 28 ∧ x = np.v6 a.ip6))) :
    DevOf np P (addAddr x d) := by
  unfold addAddr
  split
  · exact h
  · split
    · refine ⟨h.name, ?_⟩
      intro y hy
      rcases List.mem_append.mp hy with hy | hy
      · exact h.addrs y hy
      · cases List.mem_singleton.mp hy
        have : strlcpy x 46 = x := List.take_of_length_le (by omega)
        rw [this]
        exact hp
    · exact h

theorem withDev_from {l : List Dev} (h : ∀ d ∈ l, DevOf np P d) {a : Answer} {x : Bytes} (ha : P a) (hx : x.length ≤ 45)
    (hp : (a.type = 1 ∧ x = np.v4 a.ip) ∨ (a.type = 28 ∧ x = np.v6 a.ip6)) : ∀ d ∈ withDev l a.name (addAddr x), DevOf np P d := by
  intro d hd
  rcases mem_withDev hd with hd | ⟨y, hy, e, rfl⟩ | rfl
  · exact h d hd
  · have hy := h y hy
    refine hy.add hx ⟨a, ha, ?_, hp⟩
    rw [← e]
    exact hy.short
  · have : DevOf np P { hostname := strlcpy a.name 256 } :=
      ⟨⟨a, ha, by rcases hp with h | h <;> simp [h.1], rfl⟩, fun x m => by cases m⟩
    exact this.add hx ⟨a, ha, rfl, hp⟩

theorem withInst_from {l : List Inst} (h : ∀ i ∈ l, InstOf P i) {n : Bytes} {f : Inst → Inst}
    (hn : ∃ a, P a ∧ ((a.type = 12 ∧ ∃ m, a.rdname = some m ∧ m.take 255 = n.take 255) ∨
      ((a.type = 33 ∨ a.type = 16) ∧ a.name.take 255 = n.take 255)))
    (hf : ∀ i, InstOf P i → i.iname = n.take 255 → InstOf P (f i)) : ∀ i ∈ withInst l n f, InstOf P i := by
  intro i hi
  rcases mem_withInst hi with hi | ⟨y, hy, e, rfl⟩ | rfl
  · exact h i hi
  · have hy := h y hy
    refine hf y hy ?_
    rw [← e]
    exact hy.short.symm
  · refine hf _ ⟨hn, fun h => absurd rfl h, fun _ => rfl, fun h => absurd rfl h, fun h => absurd rfl h⟩ rfl

/-- The first half of `setTxt`. -/
def withProduct (x : Xht.Table) (i : Inst) : Inst :=
  match Xht.get x kwProduct with
  | some v => if i.product.isEmpty then { i with product := strlcpy v.str 64 } else i
  | none => i

/-- The second half of `setTxt`. -/
def withVersion (x : Xht.Table) (i : Inst) : Inst :=
  match Xht.get x kwVersion with
  | some v => if i.version.isEmpty then { i with version := strlcpy v.str 64 } else i
  | none => i

theorem setTxt_eq (x : Xht.Table) (i : Inst) : setTxt x i = withVersion x (withProduct x i) := rfl

theorem ansDev_from {t : Tables} (h : TabOf np P t) {a : Answer} (hp : a.ttl ≠ 0 → P a) (arg : Bool) : TabOf np P (ansDev np t a arg) := by
  unfold ansDev
  split
  · exact h
  rename_i h0
  have ha := hp h0
  split
  · rename_i ht
    split
    · exact h
    · rename_i rd hrd
      split
      · exact h
      · split
        · exact ⟨h.devs, h.insts⟩
        · exact ⟨h.devs, withInst_from h.insts ⟨a, ha, .inl ⟨ht, rd, hrd, rfl⟩⟩ fun i hi _ => hi⟩
  · split
    · rename_i ht
      split
      · exact h
      · rename_i rd hrd
        split
        · exact h
        · refine ⟨h.devs, withInst_from h.insts ⟨a, ha, .inr ⟨.inl ht, rfl⟩⟩ ?_⟩
          intro i hi e
          split
          · exact ⟨hi.name, fun _ => ⟨a, rd, ha, ht, e.symm, hrd, rfl, rfl⟩, fun h => by
              rename_i hne _
              exfalso
              apply hne
              have h' : rd.take 255 = [] := h
              rw [List.take_eq_nil_iff] at h'
              rcases h' with h' | h'
              · cases h'
              · rw [h']; rfl, hi.product, hi.version⟩
          · exact hi
    · split
      · rename_i ht
        split
        · exact h
        · rename_i rdata hrd
          split
          · exact h
          · split
            · rename_i x hx
              refine ⟨h.devs, withInst_from h.insts ⟨a, ha, .inr ⟨.inr ht, rfl⟩⟩ ?_⟩
              intro i hi e
              have key : ∀ (k : Bytes) (v : Xht.Obj), Xht.get x k = some v → strlcpy v.str 64 ≠ [] →
                  ∃ a v', P a ∧ a.type = 16 ∧ a.name.take 255 = i.iname ∧ TxtEntry (a.rdata.getD []) k v' ∧ v'.take 63 = strlcpy v.str 64 := by
                intro k v hg hv
                refine ⟨a, v.str, ha, ht, e.symm, ?_, rfl⟩
                rw [hrd]
                refine txt2sd_get (fun h => hv (by rw [h]; rfl)) hx hg
              rw [setTxt_eq]
              have step1 : InstOf P (withProduct x i) ∧ (withProduct x i).iname = i.iname := by
                unfold withProduct
                split
                · rename_i v hg
                  split
                  · exact ⟨⟨hi.name, hi.host, hi.bare, fun hne => key _ v hg hne, hi.version⟩, rfl⟩
                  · exact ⟨hi, rfl⟩
                · exact ⟨hi, rfl⟩
              generalize withProduct x i = i1 at step1
              obtain ⟨hi1, en⟩ := step1
              unfold withVersion
              split
              · rename_i v hg
                split
                · refine ⟨hi1.name, hi1.host, hi1.bare, hi1.product, fun hne => ?_⟩
                  obtain ⟨a', v', h1, h2, h3, h4⟩ := key _ v hg hne
                  exact ⟨a', v', h1, h2, h3.trans en.symm, h4⟩
                · exact hi1
              · exact hi1
            · exact ⟨h.devs, withInst_from h.insts ⟨a, ha, .inr ⟨.inr ht, rfl⟩⟩ fun i hi _ => hi⟩
      · split
        · rename_i ht
          exact ⟨withDev_from h.devs ha (np.len4 _) (.inl ⟨ht, rfl⟩), h.insts⟩
        · split
          · rename_i ht
            exact ⟨withDev_from h.devs ha (np.len6 _) (.inr ⟨ht, rfl⟩), h.insts⟩
          · exact h

theorem run_from : ∀ (as : List (Answer × Bool)) {t : Tables}, TabOf np P t → (∀ a ∈ as, a.1.ttl ≠ 0 → P a.1) → TabOf np P (run np as t)
  | [], _, h, _ => h
  | a :: as, t, h, hp => run_from as (ansDev_from h (hp a (List.mem_cons_self ..)) a.2) fun b mb => hp b (List.mem_cons_of_mem _ mb)

theorem mem_callsOf {log : List Event} {a : Answer × Bool} (h : a ∈ callsOf log) : ∃ q cb, Event.answer q cb a.1 ∈ log ∧ a.2 = (cb == 1) := by
  unfold callsOf at h
  obtain ⟨e, me, he⟩ := List.mem_filterMap.mp h
  cases e <;> cases he
  exact ⟨_, _, me, rfl⟩

/-- The tables stem from the events. -/
theorem tablesOf_from (np : Ntop) (log : List Event) :
    TabOf np (fun a => a.ttl ≠ 0 ∧ ∃ q cb, Event.answer q cb a ∈ log) (tablesOf np log) := by
  refine run_from _ ⟨fun d m => (by cases m), fun i m => by cases m⟩ ?_
  intro a ma h0
  obtain ⟨q, cb, m, _⟩ := mem_callsOf ma
  exact ⟨h0, q, cb, m⟩

end Mdns.Mquery
