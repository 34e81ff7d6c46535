import Verif.Model.Service
import Verif.Props.Addresses
import Verif.Props.Lookups
import Verif.Props.Step
import Verif.Props.SdTxt
import Verif.Props.Conf

/-!
# C63, C64: service files are published
-/

namespace Mdns.Conf

open Mdns

/-! ### Specification -/

/-- There is a record with this name and type and such data, not being withdrawn. -/
def Pub (d : D Ptrs) (name : Bytes) (type : Nat) (p : Answer → Prop) : Prop :=
  ∃ r x, d.c.recs r = some x ∧ x.rr.name = name ∧ x.rr.type = type ∧ x.rr.ttl ≠ 0 ∧ p x.rr

/-- `<type>.local.` -/
def typeName (type : Bytes) : Bytes := type ++ dotLocal

/-- `<name>.<type>.local.` -/
def instanceName (name type : Bytes) : Bytes := name ++ [0x2E] ++ type ++ dotLocal

/-- The name with a dot at its end. -/
def rooted (name : Bytes) : Bytes := if name.getLast? = some 0x2E then name else name ++ [0x2E]

/-- A service is advertised: it can be enumerated and browsed for, its instance has host, port and
TXT data, and the alias leads to the host (RFC 6763). -/
structure Advertised (d : D Ptrs) (name type host : Bytes) (port : Int) (txt : Bytes) (alias : Option Bytes) : Prop where
  enum : Pub d discoName 12 fun a => a.rdname = some (typeName type)
  browse : Pub d (typeName type) 12 fun a => a.rdname = some (instanceName name type)
  service : Pub d (instanceName name type) 33 fun a =>
    a.rdname = some host ∧ (a.port : Int) = port % 65536 ∧ a.priority = 0 ∧ a.weight = 0
  text : Pub d (instanceName name type) 16 fun a => a.rdata = some txt
  alias : ∀ a, alias = some a → Pub d (rooted a) 5 fun x => x.rdname = some host

/-- The value the `key=value` lines give the key: that of the last. -/
def LineValue (lines : List Bytes) (k : Bytes) (r : Option Bytes) : Prop :=
  match r with
  | some v => ∃ pre post, lines = pre ++ (k ++ 0x3D :: v) :: post ∧ ∀ l ∈ post, ∀ v', l ≠ k ++ 0x3D :: v'
  | none => ∀ l ∈ lines, ∀ v, l ≠ k ++ 0x3D :: v

/-- All records that share a hash chain with the name and that have no name as data, or `host`, are
records of the name and type with `host` as data. -/
def Apart (d : D Ptrs) (name : Bytes) (type : Nat) (host : Bytes) : Prop :=
  ∀ r x, d.c.recs r = some x → bucket x.rr.name sprime = bucket name sprime →
    (x.rr.rdname = none ∨ x.rr.rdname = some host) → x.rr.name = name ∧ x.rr.type = type ∧ x.rr.rdname = some host

/-- Every host has exactly the addresses of the interface.  Other addresses are being withdrawn, and
were announced before. -/
structure Settled (d : D Ptrs) (host : Bytes) (v4 : List Ip4) (v6 : List Ip6) : Prop where
  exact : ∀ n, (n = host ∨ ∃ r x, d.c.recs r = some x ∧ (x.rr.type = 1 ∨ x.rr.type = 28) ∧ x.rr.name = n) →
    (∀ ip, HasV4 d n ip ↔ ip ∈ v4) ∧ ∀ ip, HasV6 d n ip ↔ ip ∈ v6
  stay4 : ∀ r x, d.c.recs r = some x → x.rr.type = 1 → x.rr.ttl = 0 → ¬ x.Probing ∧ x.rr.ip ∉ v4
  stay6 : ∀ r x, d.c.recs r = some x → x.rr.type = 28 → x.rr.ttl = 0 → ¬ x.Probing ∧ x.rr.ip6 ∉ v6

/-- The same records with the same data. -/
def SameRecords (d d' : D Ptrs) : Prop := ∀ r, (d'.c.recs r).map (·.rr) = (d.c.recs r).map (·.rr)

/-- Records other than addresses are the same, with the same data. -/
def SameOthers (d d' : D Ptrs) : Prop := ∀ a : Answer, a.type ≠ 1 → a.type ≠ 28 → ∀ r,
  (∃ x, d'.c.recs r = some x ∧ x.rr = a) ↔ ∃ x, d.c.recs r = some x ∧ x.rr = a

/-- At most one record with the name and type. -/
def AtMostOne (d : D Ptrs) (name : Bytes) (type : Nat) : Prop :=
  ∀ r x s y, d.c.recs r = some x → d.c.recs s = some y → x.rr.name = name → x.rr.type = type → y.rr.name = name →
    y.rr.type = type → r = s

/-- Only addresses are being withdrawn. -/
def Live (d : D Ptrs) : Prop := ∀ r x, d.c.recs r = some x → x.rr.ttl = 0 → x.rr.type = 1 ∨ x.rr.type = 28

/-! ### Calls of the library -/

theorem _root_.Mdns.Reach.call {env : Env} {d : D Ptrs} (h : Reach env d) {α : Type} {x : M Ptrs α} {f : α → OpOut} {o : Op}
    (hs : OpSafe env d.c d.q.walk o) (ho : step env o d = (x >>= fun a => pure (f a)) d) :
    ∃ a d', x d = .ok (a, d') ∧ Calls env d [(o, f a)] d' ∧ Did env o d.c d.lists (f a) d'.c d'.lists := by
  obtain ⟨l, hr⟩ := h.rep
  obtain ⟨a, d', _, e, _, _⟩ := hr.step o hs
  have e0 := e
  rw [ho] at e0
  cases e1 : x d with
  | ok p =>
    obtain ⟨b, d1⟩ := p
    rw [M.bind_ok e1] at e0
    cases e0
    exact ⟨b, _, rfl, .just hs e, h.did hs e⟩
  | ub => rw [M.bind_ub e1] at e0; cases e0
  | hang => rw [M.bind_hang e1] at e0; cases e0

/-- Record `r` has the data `a` afterwards; nothing else changes. -/
structure Puts (d d' : D Ptrs) (r : Nat) (a : Answer) : Prop where
  here : ∃ y, d'.c.recs r = some y ∧ y.rr = a
  others : ∀ s, s ≠ r → d'.c.recs s = d.c.recs s

theorem fresh_id {env : Env} {d : D Ptrs} (h : Reach env d) : d.c.recs d.lists.size = none := by
  cases hx : d.c.recs d.lists.size with
  | none => rfl
  | some x => exact absurd (h.inv.rinv.bound _ (by rw [hx]; rfl)) (Nat.lt_irrefl _)

/-- Calls `load` is made of. -/
def _root_.Mdns.Op.ofLoad : Op → Bool
  | .shared .. => true
  | .unique .. => true
  | .setHost .. => true
  | .setSrv .. => true
  | .setRaw .. => true
  | .setInterface .. => true
  | _ => false

theorem make_call {env : Env} {d : D Ptrs} (h : Reach env d) (share : Bool) (cb : Nat) (name : Bytes) (type ttl : Nat) :
    ∃ r d' hs, recordMake share cb name type ttl d = .ok (r, d') ∧ Calls env d hs d' ∧ (∀ k ∈ hs, k.1.ofLoad = true) ∧
      d.c.recs r = none ∧ Puts d d' r { name := name, type := type, ttl := ttl } ∧
      (share = false → ∃ y, d'.c.recs r = some y ∧ y.Probing) := by
  unfold recordMake
  cases share with
  | true =>
    obtain ⟨r, d', e, n, hd⟩ := h.call (o := .shared name type ttl) (x := shared name type ttl) (f := .handle) trivial rfl
    refine ⟨r, d', _, e, n, by simp [Op.ofLoad], ?_⟩
    have hf := fresh_id h
    clear e n
    generalize ho : OpOut.handle r = o at hd
    generalize hc : d'.c = c', d'.lists = l' at hd
    cases hd
    cases ho
    refine ⟨hf, ⟨⟨_, by rw [hc]; exact upd_same .., rfl⟩, fun s hs => ?_⟩, (by intro h; cases h)⟩
    rw [hc]
    exact upd_other _ _ _ _ hs
  | false =>
    obtain ⟨r, d', e, n, hd⟩ := h.call (o := .unique name type ttl (some cb)) (x := unique name type ttl (some cb)) (f := .handle) rfl rfl
    refine ⟨r, d', _, e, n, by simp [Op.ofLoad], ?_⟩
    have hf := fresh_id h
    clear e n
    generalize ho : OpOut.handle r = o at hd
    generalize hc : d'.c = c', d'.lists = l' at hd
    cases hd
    cases ho
    refine ⟨hf, ⟨⟨_, by rw [hc]; exact upd_same .., rfl⟩, fun s hs => ?_⟩,
      fun _ => ⟨uniqueRec name type ttl (some cb), upd_same .., by simp [Rec.Probing, uniqueRec]⟩⟩
    rw [hc]
    exact upd_other _ _ _ _ hs

theorem setHost_call {env : Env} {d : D Ptrs} (h : Reach env d) {r : Nat} {x : Rec} (hx : d.c.recs r = some x) (n : Bytes) :
    ∃ d' hs, setHost r n d = .ok ((), d') ∧ Calls env d hs d' ∧ (∀ k ∈ hs, k.1.ofLoad = true) ∧
      Puts d d' r { x.rr with rdname := some n } := by
  obtain ⟨_, d', e, cs, hd⟩ := h.call (o := .setHost r n) (x := setHost r n) (f := fun _ => .unit) (by simp [OpSafe, hx]) rfl
  refine ⟨d', _, e, cs, by simp [Op.ofLoad], ?_⟩
  clear e cs
  generalize hc : d'.c = c', d'.lists = l' at hd
  generalize ho : OpOut.unit = o at hd
  cases hd with
  | setHost hx' =>
    rw [hx] at hx'
    cases hx'
    have := setSt_rr d.c d.lists r { x with rr := { x.rr with rdname := some n } }
    exact ⟨by rw [hc]; exact this.1, by rw [hc]; exact this.2⟩

theorem setSrv_call {env : Env} {d : D Ptrs} (h : Reach env d) {r : Nat} {x : Rec} (hx : d.c.recs r = some x) (p w o : Nat) (n : Bytes) :
    ∃ d' hs, setSrv r p w o n d = .ok ((), d') ∧ Calls env d hs d' ∧ (∀ k ∈ hs, k.1.ofLoad = true) ∧
      Puts d d' r { x.rr with priority := p, weight := w, port := o, rdname := some n } := by
  obtain ⟨_, d', e, cs, hd⟩ := h.call (o := .setSrv r p w o n) (x := setSrv r p w o n) (f := fun _ => .unit) (by simp [OpSafe, hx]) rfl
  refine ⟨d', _, e, cs, by simp [Op.ofLoad], ?_⟩
  clear e cs
  generalize hc : d'.c = c', d'.lists = l' at hd
  generalize ho : OpOut.unit = out at hd
  cases hd with
  | setSrv hx' =>
    rw [hx] at hx'
    cases hx'
    have := setSt_rr d.c d.lists r { x with rr := { x.rr with priority := p, weight := w, port := o, rdname := some n } }
    exact ⟨by rw [hc]; exact this.1, by rw [hc]; exact this.2⟩

theorem setRaw_call {env : Env} {d : D Ptrs} (h : Reach env d) {r : Nat} {x : Rec} (hx : d.c.recs r = some x) (b : Bytes) :
    ∃ d' hs, setRaw r b d = .ok ((), d') ∧ Calls env d hs d' ∧ (∀ k ∈ hs, k.1.ofLoad = true) ∧
      Puts d d' r { x.rr with rdata := some b } := by
  obtain ⟨_, d', e, cs, hd⟩ := h.call (o := .setRaw r b) (x := setRaw r b) (f := fun _ => .unit) (by simp [OpSafe, hx]) rfl
  refine ⟨d', _, e, cs, by simp [Op.ofLoad], ?_⟩
  clear e cs
  generalize hc : d'.c = c', d'.lists = l' at hd
  generalize ho : OpOut.unit = out at hd
  cases hd with
  | setRaw hx' =>
    rw [hx] at hx'
    cases hx'
    have := setSt_rr d.c d.lists r { x with rr := { x.rr with rdata := some b } }
    exact ⟨by rw [hc]; exact this.1, by rw [hc]; exact this.2⟩

/-! ### `record` -/

/-- The records the loop of `record` stops at. -/
def _root_.Mdns.Core.stops (c : Core) (host : Bytes) (r : Nat) : Bool :=
  match c.recs r with
  | some x => x.rr.rdname = none ∨ x.rr.rdname = some host
  | none => false

theorem recordScan_ok {Q : Type} [QOps Q] {c : Core} {q : Q} {host : Bytes} : ∀ (rs : List Nat), (∀ r ∈ rs, ∃ x, c.recs r = some x) →
    recordScan host rs ⟨c, q⟩ = .ok (rs.find? (c.stops host), ⟨c, q⟩)
  | [], _ => rfl
  | r :: rs, h => by
    obtain ⟨x, hx⟩ := h r (by simp)
    have hi : c.stops host r = decide (x.rr.rdname = none ∨ x.rr.rdname = some host) := by
      simp only [Core.stops, hx]
    unfold recordScan
    rw [M.bind_ok (getRec_ok hx)]
    by_cases hc : x.rr.rdname = none ∨ x.rr.rdname = some host
    · rw [if_pos hc, List.find?_cons_of_pos (by rw [hi]; exact decide_eq_true hc)]
      rfl
    · rw [if_neg hc, List.find?_cons_of_neg (by rw [hi]; simpa using hc)]
      exact recordScan_ok rs fun r' m => h r' (by simp [m])

/-- What `record` does: it gives a record that is there and that the search accepts, or makes one. -/
inductive RecordR (share : Bool) (host : Option Bytes) (name : Bytes) (type ttl : Nat) (d : D Ptrs) (r : Nat) : D Ptrs → Prop
  | found {x : Rec} (hx : d.c.recs r = some x) (hb : bucket x.rr.name sprime = bucket name sprime)
      (hm : match host with
        | none => x.rr.name = name ∧ x.rr.type = type
        | some h => (x.rr.rdname = none ∨ x.rr.rdname = some h) ∧ d.has name type) : RecordR share host name type ttl d r d
  | made {d' : D Ptrs} (hn : d.c.recs r = none)
      (no : ∀ s y, d.c.recs s = some y → y.rr.name = name → y.rr.type = type →
        match host with
        | none => False
        | some h => y.rr.rdname ≠ none ∧ y.rr.rdname ≠ some h)
      (p : Puts d d' r { name := name, type := type, ttl := ttl, rdname := host })
      (pr : share = false → host = none → ∃ y, d'.c.recs r = some y ∧ y.Probing) : RecordR share host name type ttl d r d'

theorem recordNew_call {env : Env} {d : D Ptrs} (h : Reach env d) (share : Bool) (cb : Nat) (host : Option Bytes) (name : Bytes) (type ttl : Nat) :
    ∃ r d' hs, recordNew share cb host name type ttl d = .ok (r, d') ∧ Calls env d hs d' ∧ (∀ k ∈ hs, k.1.ofLoad = true) ∧
      d.c.recs r = none ∧ Puts d d' r { name := name, type := type, ttl := ttl, rdname := host } ∧
      (share = false → host = none → ∃ y, d'.c.recs r = some y ∧ y.Probing) := by
  obtain ⟨r, d1, hs1, e1, n1, o1, hn, p1, pr⟩ := make_call h share cb name type ttl
  unfold recordNew
  rw [M.bind_ok e1]
  cases host with
  | none => exact ⟨r, d1, hs1, rfl, n1, o1, hn, p1, fun h _ => pr h⟩
  | some b =>
    obtain ⟨y, hy, hr⟩ := p1.here
    obtain ⟨d2, hs2, e2, n2, o2, p2⟩ := setHost_call (n1.reach h) hy b
    refine ⟨r, d2, hs1 ++ hs2, ?_, n1.append n2, ?_, hn, ⟨?_, ?_⟩, (by intro _ h; cases h)⟩
    · show (setHost r b >>= fun _ => pure r) d1 = _
      rw [M.bind_ok e2]
      rfl
    · intro k m
      rcases List.mem_append.mp m with m | m
      · exact o1 k m
      · exact o2 k m
    · obtain ⟨z, hz, hr2⟩ := p2.here
      exact ⟨z, hz, by rw [hr2, hr]⟩
    · intro s hs
      rw [p2.others s hs, p1.others s hs]

theorem isNamed_iff {c : Core} {name : Bytes} {type r : Nat} :
    c.isNamed name type r = true ↔ ∃ x, c.recs r = some x ∧ x.rr.name = name ∧ x.rr.type = type := by
  unfold Core.isNamed
  constructor
  · intro hr
    split at hr
    · next x hx => exact ⟨x, hx, (of_decide_eq_true hr).2, (of_decide_eq_true hr).1⟩
    · cases hr
  · rintro ⟨x, hx, h1, h2⟩
    rw [hx]
    exact decide_eq_true ⟨h2, h1⟩

theorem record_call {env : Env} {d : D Ptrs} (h : Reach env d) (share : Bool) (cb : Nat) (host : Option Bytes) (name : Bytes) (type ttl : Nat) :
    ∃ r d' hs, record share cb host name type ttl d = .ok (r, d') ∧ Calls env d hs d' ∧ (∀ k ∈ hs, k.1.ofLoad = true) ∧
      RecordR share host name type ttl d r d' := by
  have i := h.inv.rinv
  have ef : find name type d =
      .ok (((d.c.published (bucket name sprime)).filter (d.c.isNamed name type)).head?, d) := by
    unfold find
    rw [M.bind_ok core_ok]
    exact find_go_ok _ (i.pubrec _)
  obtain ⟨rn, dn, hsn, en, nn, on, hnn, pn, prn⟩ := recordNew_call h share cb host name type ttl
  unfold record
  rw [M.bind_ok ef]
  have inchain : ∀ s y, d.c.recs s = some y → y.rr.name = name → y.rr.type = type →
      s ∈ (d.c.published (bucket name sprime)).filter (d.c.isNamed name type) := by
    intro s y hy h1 h2
    refine List.mem_filter.mpr ⟨?_, isNamed_iff.mpr ⟨y, hy, h1, h2⟩⟩
    have := i.mem s y hy
    rwa [h1] at this
  cases hh : ((d.c.published (bucket name sprime)).filter (d.c.isNamed name type)).head? with
  | none =>
    refine ⟨rn, dn, hsn, en, nn, on, .made hnn ?_ pn prn⟩
    intro s y hy h1 h2
    have := inchain s y hy h1 h2
    rw [List.head?_eq_none_iff.mp hh] at this
    cases this
  | some r =>
    have hm := List.mem_of_head? hh
    obtain ⟨x, hx, hxn, hxt⟩ := isNamed_iff.mp (List.mem_filter.mp hm).2
    cases host with
    | none => exact ⟨r, d, [], rfl, .nil, by simp, .found hx (by rw [hxn]) ⟨hxn, hxt⟩⟩
    | some b =>
      obtain ⟨pre, suf, hp, hpre⟩ : ∃ pre suf, d.c.published (bucket name sprime) = pre ++ r :: suf ∧
          ∀ s ∈ pre, d.c.isNamed name type s = false := by
        generalize d.c.published (bucket name sprime) = P at hh
        induction P with
        | nil => cases hh
        | cons a P ih =>
          by_cases ha : d.c.isNamed name type a = true
          · rw [List.filter_cons_of_pos ha] at hh
            cases hh
            exact ⟨[], P, rfl, by simp⟩
          · rw [List.filter_cons_of_neg ha] at hh
            obtain ⟨pre, suf, h1, h2⟩ := ih hh
            refine ⟨a :: pre, suf, by rw [h1]; rfl, ?_⟩
            intro s m
            rcases List.mem_cons.mp m with rfl | m
            · simpa using ha
            · exact h2 s m
      have hnd := i.pnodup (bucket name sprime)
      rw [hp] at hnd
      have eb : rBehind r d = .ok (suf, d) := by
        unfold rBehind
        rw [M.bind_ok (getRec_ok hx), M.bind_ok core_ok, hxn, hp, behind_split (split_nodup hnd).1]
        rfl
      have hall : ∀ s ∈ r :: suf, ∃ x, d.c.recs s = some x := fun s m =>
        i.pubrec (bucket name sprime) s (by rw [hp]; exact List.mem_append_right _ m)
      have es := recordScan_ok (q := d.q) (host := b) (r :: suf) hall
      show ∃ r' d' hs, (rBehind r >>= fun rest => recordScan b (r :: rest) >>= fun g => match g with
          | some r => pure r
          | none => recordNew share cb (some b) name type ttl) d = .ok (r', d') ∧ _
      rw [M.bind_ok eb, M.bind_ok es]
      cases hf : (r :: suf).find? (d.c.stops b) with
      | none =>
        refine ⟨rn, dn, hsn, en, nn, on, .made hnn ?_ pn prn⟩
        intro s y hy h1 h2
        have hs := (List.mem_filter.mp (inchain s y hy h1 h2)).1
        rw [hp] at hs
        rcases List.mem_append.mp hs with m | m
        · exact absurd (isNamed_iff.mpr ⟨y, hy, h1, h2⟩) (by rw [hpre s m]; simp)
        · have := List.find?_eq_none.mp hf s m
          simpa [Core.stops, hy] using this
      | some g =>
        have hg := List.mem_of_find?_eq_some hf
        have hgs := List.find?_some hf
        obtain ⟨y, hy⟩ := hall g hg
        refine ⟨g, d, [], rfl, .nil, by simp, .found hy ?_ ⟨?_, r, x, hx, hxn, hxt⟩⟩
        · obtain ⟨z, hz, hb⟩ := i.pub (bucket name sprime) g (by rw [hp]; exact List.mem_append_right _ hg)
          rw [hy] at hz
          cases hz
          exact hb
        · simpa [Core.stops, hy] using hgs

theorem RecordR.named {share : Bool} {name : Bytes} {type ttl : Nat} {d d' : D Ptrs} {r : Nat} (h : RecordR share none name type ttl d r d') :
    ∃ x, d'.c.recs r = some x ∧ x.rr.name = name ∧ x.rr.type = type := by
  cases h with
  | found hx _ hm => exact ⟨_, hx, hm.1, hm.2⟩
  | made _ _ p _ =>
    obtain ⟨y, hy, e⟩ := p.here
    exact ⟨y, hy, by rw [e], by rw [e]⟩

/-! ### `load` -/

/-- `mdnsd_set_interface_addresses` from `load`. -/
inductive AddrsR (env : Env) (d : D Ptrs) : Option (List Ip4 × List Ip6) → D Ptrs → Prop
  | none : AddrsR env d none d
  | some {v4 : List Ip4} {v6 : List Ip6} {o : OpOut} {d' : D Ptrs} (e : step env (.setInterface v4 v6) d = .ok (o, d')) :
      AddrsR env d (some (v4, v6)) d'

/-- The `cname` line. -/
inductive CnameR (tgt : Bytes) (d : D Ptrs) : Option Bytes → D Ptrs → Prop
  | none : CnameR tgt d none d
  | some {a : Bytes} {r : Nat} {d' : D Ptrs} (n : RecordR true (some tgt) (fqdn 256 a) 5 120 d r d') : CnameR tgt d (some a) d'

/-- What `load` does. -/
structure LoadR (env : Env) (s : SRec) (hostname : Bytes) (addrs : Option (List Ip4 × List Ip6)) (d d' : D Ptrs)
    (d1 d2 d3 d4 d5 d6 d7 d8 d9 : D Ptrs) (r1 r2 r3 r5 r6 r9 : Nat) : Prop where
  enum : RecordR true (some s.tlocal) discoName 12 120 d r1 d1
  ptr : RecordR true (some (s.hlocal hostname)) s.tlocal 12 120 d1 r2 d2
  srv : RecordR false none (s.hlocal hostname) 33 120 d2 r3 d3
  srvData : ∃ x, d3.c.recs r3 = some x ∧ x.rr.name = s.hlocal hostname ∧ x.rr.type = 33 ∧
    Puts d3 d4 r3 { x.rr with priority := 0, weight := 0, port := s.portOf, rdname := some (s.tgtlocal hostname) }
  a : RecordR false none (s.tgtlocal hostname) 1 120 d4 r5 d5
  aaaa : RecordR false none (s.tgtlocal hostname) 28 120 d5 r6 d6
  addrs : AddrsR env d6 addrs d7
  cname : CnameR (s.tgtlocal hostname) d7 s.cname d8
  txt : RecordR false none (s.hlocal hostname) 16 4500 d8 r9 d9
  txtData : ∃ x, d9.c.recs r9 = some x ∧ x.rr.name = s.hlocal hostname ∧ x.rr.type = 16 ∧
    Puts d9 d' r9 { x.rr with rdata := some s.txtData }
  reach6 : Reach env d6

theorem addrs_call {env : Env} {d : D Ptrs} (h : Reach env d) (addrs : Option (List Ip4 × List Ip6)) :
    ∃ d' hs, loadAddrs addrs d = .ok ((), d') ∧ Calls env d hs d' ∧ (∀ k ∈ hs, k.1.ofLoad = true) ∧ AddrsR env d addrs d' := by
  cases addrs with
  | none => exact ⟨d, [], rfl, .nil, by simp, .none⟩
  | some p =>
    obtain ⟨v4, v6⟩ := p
    obtain ⟨_, d', e, cs, _⟩ := h.call (o := .setInterface v4 v6) (x := setInterfaceAddresses v4 v6) (f := fun _ => .unit) trivial rfl
    refine ⟨d', _, e, cs, by simp [Op.ofLoad], .some (o := .unit) ?_⟩
    show (setInterfaceAddresses v4 v6 >>= fun _ => pure OpOut.unit) d = _
    rw [M.bind_ok e]
    rfl

theorem cname_call {env : Env} {d : D Ptrs} (h : Reach env d) (cb : Nat) (s : SRec) (hostname : Bytes) :
    ∃ d' hs, loadCname cb s hostname d = .ok ((), d') ∧ Calls env d hs d' ∧ (∀ k ∈ hs, k.1.ofLoad = true) ∧
      CnameR (s.tgtlocal hostname) d s.cname d' := by
  unfold loadCname
  cases s.cname with
  | none => exact ⟨d, [], rfl, .nil, by simp, .none⟩
  | some a =>
    obtain ⟨r, d', hs, e, cs, o, n⟩ := record_call h true cb (some (s.tgtlocal hostname)) (fqdn 256 a) 5 120
    refine ⟨d', hs, ?_, cs, o, .some n⟩
    show (record true cb (some (s.tgtlocal hostname)) (fqdn 256 a) 5 120 >>= fun _ => pure ()) d = _
    rw [M.bind_ok e]
    rfl

/-- In any state, loading a service file is a sequence of calls of the library. -/
theorem load_call {env : Env} {d : D Ptrs} (h : Reach env d) (cb : Nat) (s : SRec) (hostname : Bytes)
    (addrs : Option (List Ip4 × List Ip6)) :
    ∃ d' hs, load cb s hostname addrs d = .ok ((), d') ∧ Calls env d hs d' ∧ (∀ k ∈ hs, k.1.ofLoad = true) ∧
      ∃ d1 d2 d3 d4 d5 d6 d7 d8 d9 r1 r2 r3 r5 r6 r9, LoadR env s hostname addrs d d' d1 d2 d3 d4 d5 d6 d7 d8 d9 r1 r2 r3 r5 r6 r9 := by
  obtain ⟨r1, d1, h1, e1, n1, o1, x1⟩ := record_call h true cb (some s.tlocal) discoName 12 120
  have g1 := n1.reach h
  obtain ⟨r2, d2, h2, e2, n2, o2, x2⟩ := record_call g1 true cb (some (s.hlocal hostname)) s.tlocal 12 120
  have g2 := n2.reach g1
  obtain ⟨r3, d3, h3, e3, n3, o3, x3⟩ := record_call g2 false cb none (s.hlocal hostname) 33 120
  have g3 := n3.reach g2
  obtain ⟨y3, hy3, nm3, ty3⟩ := x3.named
  obtain ⟨d4, h4, e4, n4, o4, p4⟩ := setSrv_call g3 hy3 0 0 s.portOf (s.tgtlocal hostname)
  have g4 := n4.reach g3
  obtain ⟨r5, d5, h5, e5, n5, o5, x5⟩ := record_call g4 false cb none (s.tgtlocal hostname) 1 120
  have g5 := n5.reach g4
  obtain ⟨r6, d6, h6, e6, n6, o6, x6⟩ := record_call g5 false cb none (s.tgtlocal hostname) 28 120
  have g6 := n6.reach g5
  obtain ⟨d7, h7, e7, n7, o7, x7⟩ := addrs_call g6 addrs
  have g7 := n7.reach g6
  obtain ⟨d8, h8, e8, n8, o8, x8⟩ := cname_call g7 cb s hostname
  have g8 := n8.reach g7
  obtain ⟨r9, d9, h9, e9, n9, o9, x9⟩ := record_call g8 false cb none (s.hlocal hostname) 16 4500
  have g9 := n9.reach g8
  obtain ⟨y9, hy9, nm9, ty9⟩ := x9.named
  obtain ⟨d', h10, e10, n10, o10, p10⟩ := setRaw_call g9 hy9 s.txtData
  refine ⟨d', h1 ++ (h2 ++ (h3 ++ (h4 ++ (h5 ++ (h6 ++ (h7 ++ (h8 ++ (h9 ++ h10)))))))), ?_, ?_, ?_,
    d1, d2, d3, d4, d5, d6, d7, d8, d9, r1, r2, r3, r5, r6, r9, x1, x2, x3, ⟨y3, hy3, nm3, ty3, p4⟩, x5, x6, x7, x8, x9,
    ⟨y9, hy9, nm9, ty9, p10⟩, g6⟩
  · unfold load
    rw [M.bind_ok e1, M.bind_ok e2, M.bind_ok e3, M.bind_ok e4, M.bind_ok e5, M.bind_ok e6, M.bind_ok e7, M.bind_ok e8,
      M.bind_ok e9, e10]
  · exact n1.append (n2.append (n3.append (n4.append (n5.append (n6.append (n7.append (n8.append (n9.append n10))))))))
  · intro k m
    simp only [List.mem_append] at m
    rcases m with m | m | m | m | m | m | m | m | m | m
    · exact o1 k m
    · exact o2 k m
    · exact o3 k m
    · exact o4 k m
    · exact o5 k m
    · exact o6 k m
    · exact o7 k m
    · exact o8 k m
    · exact o9 k m
    · exact o10 k m

/-! ### What stays -/

/-- Records of this type keep their data. -/
def Lasts (type : Nat) (d d' : D Ptrs) : Prop :=
  ∀ s y, d.c.recs s = some y → y.rr.type = type → ∃ y', d'.c.recs s = some y' ∧ y'.rr = y.rr

theorem Lasts.trans {type : Nat} {d1 d2 d3 : D Ptrs} (a : Lasts type d1 d2) (b : Lasts type d2 d3) : Lasts type d1 d3 := by
  intro s y hy ht
  obtain ⟨y', hy', e⟩ := a s y hy ht
  obtain ⟨y'', hy'', e'⟩ := b s y' hy' (by rw [e]; exact ht)
  exact ⟨y'', hy'', e'.trans e⟩

theorem Pub.lasts {d d' : D Ptrs} {name : Bytes} {type : Nat} {p : Answer → Prop} (h : Pub d name type p) (l : Lasts type d d') :
    Pub d' name type p := by
  obtain ⟨r, x, hx, h1, h2, h3, h4⟩ := h
  obtain ⟨y, hy, e⟩ := l r x hx h2
  exact ⟨r, y, hy, by rw [e]; exact h1, by rw [e]; exact h2, by rw [e]; exact h3, by rw [e]; exact h4⟩

theorem Puts.lasts {d d' : D Ptrs} {r : Nat} {a : Answer} (p : Puts d d' r a) {type : Nat}
    (h : ∀ x, d.c.recs r = some x → x.rr.type ≠ type) : Lasts type d d' := by
  intro s y hy ht
  by_cases e : s = r
  · subst e
    exact absurd ht (h y hy)
  · exact ⟨y, by rw [p.others s e]; exact hy, rfl⟩

theorem RecordR.lasts {share : Bool} {host : Option Bytes} {name : Bytes} {type ttl : Nat} {d d' : D Ptrs} {r : Nat}
    (h : RecordR share host name type ttl d r d') (t : Nat) : Lasts t d d' := by
  cases h with
  | found => exact fun s y hy _ => ⟨y, hy, rfl⟩
  | made hn _ p _ => exact p.lasts fun x hx => by rw [hn] at hx; cases hx

theorem AddrsR.lasts {env : Env} {d d' : D Ptrs} (hr : Reach env d) {addrs : Option (List Ip4 × List Ip6)} (h : AddrsR env d addrs d') {t : Nat}
    (h1 : t ≠ 1) (h2 : t ≠ 28) : Lasts t d d' := by
  cases h with
  | none => exact fun s y hy _ => ⟨y, hy, rfl⟩
  | some e =>
    intro s y hy ht
    exact ⟨y, ((C38_interface_partial hr e).2 s y (by rw [ht]; exact h1) (by rw [ht]; exact h2)).mpr hy, rfl⟩

theorem CnameR.lasts {tgt : Bytes} {d d' : D Ptrs} {a : Option Bytes} (h : CnameR tgt d a d') (t : Nat) : Lasts t d d' := by
  cases h with
  | none => exact fun s y hy _ => ⟨y, hy, rfl⟩
  | some n => exact n.lasts t

/-- Records of this type were there before. -/
def Backs (type : Nat) (d d' : D Ptrs) : Prop := ∀ s y, d'.c.recs s = some y → y.rr.type = type → d.c.recs s = some y

theorem Backs.trans {type : Nat} {d1 d2 d3 : D Ptrs} (a : Backs type d1 d2) (b : Backs type d2 d3) : Backs type d1 d3 :=
  fun s y hy ht => a s y (b s y hy ht) ht

theorem Puts.backs {d d' : D Ptrs} {r : Nat} {a : Answer} (p : Puts d d' r a) {type : Nat} (h : a.type ≠ type) : Backs type d d' := by
  intro s y hy ht
  by_cases e : s = r
  · subst e
    obtain ⟨z, hz, hr⟩ := p.here
    rw [hz] at hy
    cases hy
    rw [hr] at ht
    exact absurd ht h
  · rw [← p.others s e]
    exact hy

theorem RecordR.backs {share : Bool} {host : Option Bytes} {name : Bytes} {type ttl : Nat} {d d' : D Ptrs} {r : Nat}
    (h : RecordR share host name type ttl d r d') {t : Nat} (ht : type ≠ t) : Backs t d d' := by
  cases h with
  | found => exact fun _ _ hy _ => hy
  | made _ _ p _ => exact p.backs ht

theorem AddrsR.backs {env : Env} {d d' : D Ptrs} (hr : Reach env d) {addrs : Option (List Ip4 × List Ip6)} (h : AddrsR env d addrs d') {t : Nat}
    (h1 : t ≠ 1) (h2 : t ≠ 28) : Backs t d d' := by
  cases h with
  | none => exact fun _ _ hy _ => hy
  | some e =>
    intro s y hy ht
    exact ((C38_interface_partial hr e).2 s y (by rw [ht]; exact h1) (by rw [ht]; exact h2)).mp hy

theorem Puts.live {d d' : D Ptrs} {r : Nat} {x : Rec} {a : Answer} (p : Puts d d' r a) (hx : d.c.recs r = some x)
    (ht : a.ttl = x.rr.ttl) (hy : a.type = x.rr.type) (h : Live d) : Live d' := by
  intro s y hs h0
  by_cases e : s = r
  · subst e
    obtain ⟨z, hz, rfl⟩ := p.here
    rw [hz] at hs
    cases hs
    rw [hy]
    exact h s x hx (by rw [← ht]; exact h0)
  · rw [p.others s e] at hs
    exact h s y hs h0

theorem RecordR.live {share : Bool} {host : Option Bytes} {name : Bytes} {type ttl : Nat} {d d' : D Ptrs} {r : Nat}
    (n : RecordR share host name type ttl d r d') (ht : ttl ≠ 0) (h : Live d) : Live d' := by
  cases n with
  | found => exact h
  | made hn _ p _ =>
    intro s y hs h0
    by_cases e : s = r
    · subst e
      obtain ⟨z, hz, hr⟩ := p.here
      rw [hz] at hs
      cases hs
      rw [hr] at h0
      exact absurd h0 ht
    · rw [p.others s e] at hs
      exact h s y hs h0

theorem AddrsR.live {env : Env} {d d' : D Ptrs} (hr : Reach env d) {addrs : Option (List Ip4 × List Ip6)} (n : AddrsR env d addrs d')
    (h : Live d) : Live d' := by
  cases n with
  | none => exact h
  | some e =>
    intro s y hy h0
    by_cases h1 : y.rr.type = 1
    · exact .inl h1
    · by_cases h2 : y.rr.type = 28
      · exact .inr h2
      · exact h s y (((C38_interface_partial hr e).2 s y h1 h2).mp hy) h0

theorem CnameR.live {tgt : Bytes} {d d' : D Ptrs} {a : Option Bytes} (n : CnameR tgt d a d') (h : Live d) : Live d' := by
  cases n with
  | none => exact h
  | some n => exact n.live (by decide) h

/-- With a name as data, the record is there afterwards. -/
theorem RecordR.pub {share : Bool} {host name : Bytes} {type : Nat} {d d' : D Ptrs} {r : Nat} (n : RecordR share (some host) name type 120 d r d')
    (h : d.has name type → Apart d name type host) (hl : Live d) (h1 : type ≠ 1) (h2 : type ≠ 28) :
    Pub d' name type fun a => a.rdname = some host := by
  cases n with
  | found hx hb hm =>
    obtain ⟨a, b, c⟩ := h hm.2 _ _ hx hb hm.1
    refine ⟨r, _, hx, a, b, fun h0 => ?_, c⟩
    rcases hl _ _ hx h0 with e | e
    · exact h1 (b.symm.trans e)
    · exact h2 (b.symm.trans e)
  | made hn _ p _ =>
    obtain ⟨y, hy, e⟩ := p.here
    exact ⟨r, y, hy, by rw [e], by rw [e], by rw [e]; exact Nat.succ_ne_zero 119, by rw [e]⟩

/-! ### Names -/

theorem fqdn_rooted {t : Bytes} (h : (rooted t).length ≤ 255) : fqdn 256 t = rooted t := by
  unfold fqdn rooted CLib.snprintf at *
  split
  · rename_i he
    rw [if_pos he] at h
    rw [List.append_nil, List.take_of_length_le h]
  · rename_i he
    rw [if_neg he] at h
    rw [List.take_of_length_le h]

theorem hlocal_eq {s : SRec} {hostname : Bytes} (h : (instanceName (s.nameOf hostname) s.typeOf).length ≤ 255) :
    s.hlocal hostname = instanceName (s.nameOf hostname) s.typeOf := by
  have e : s.nameOf hostname ++ 0x2E :: s.typeOf ++ dotLocal = instanceName (s.nameOf hostname) s.typeOf := by
    simp [instanceName]
  unfold SRec.hlocal CLib.snprintf
  rw [e]
  exact List.take_of_length_le h

theorem tlocal_eq {s : SRec} (h : (typeName s.typeOf).length ≤ 255) : s.tlocal = typeName s.typeOf :=
  List.take_of_length_le h

theorem tlocal_ne {s : SRec} {hostname : Bytes} (h : (instanceName (s.nameOf hostname) s.typeOf).length ≤ 255) :
    s.tlocal ≠ s.hlocal hostname := by
  have ht : (typeName s.typeOf).length ≤ 255 := by
    simp [instanceName, typeName] at h ⊢
    omega
  rw [hlocal_eq h, tlocal_eq ht]
  intro e
  have := congrArg List.length e
  simp [instanceName, typeName] at this
  omega

/-! ### The theorems -/

/-- C63: loading a service file advertises the service.  For any state in which nothing but
addresses is being withdrawn, and names of at most 255 characters.  Missing: if a record in the same hash
chain has no name as data (an address), or the same, the service may be left out
(`C63_collision_counterexample`), and if the alias is there already it stays as it is. -/
theorem C63_advertised_partial {env : Env} {d : D Ptrs} (h : Reach env d) (cb : Nat) (s : SRec) (hostname : Bytes)
    (addrs : Option (List Ip4 × List Ip6)) (hl : Live d)
    (hn : (instanceName (s.nameOf hostname) s.typeOf).length ≤ 255)
    (ha : ∀ a, s.cname = some a → (rooted a).length ≤ 255)
    (h1 : d.has discoName 12 → Apart d discoName 12 (typeName s.typeOf))
    (h2 : d.has (typeName s.typeOf) 12 ∨ typeName s.typeOf = discoName →
      Apart d (typeName s.typeOf) 12 (instanceName (s.nameOf hostname) s.typeOf))
    (h3 : ∀ a r x, s.cname = some a → d.c.recs r = some x → x.rr.name = rooted a → x.rr.type = 5 →
      x.rr.rdname = some (s.tgtlocal hostname)) :
    ∃ d', load cb s hostname addrs d = .ok ((), d') ∧ Reach env d' ∧
      Advertised d' (s.nameOf hostname) s.typeOf (s.tgtlocal hostname) s.port s.txtData s.cname := by
  obtain ⟨d', hs, e, cs, _, d1, d2, d3, d4, d5, d6, d7, d8, d9, r1, r2, r3, r5, r6, r9, L⟩ := load_call h cb s hostname addrs
  refine ⟨d', e, cs.reach h, ?_⟩
  have ht : (typeName s.typeOf).length ≤ 255 := by
    simp [instanceName, typeName] at hn ⊢
    omega
  have hlo := hlocal_eq hn
  have tlo := tlocal_eq ht
  have hne := tlocal_ne hn
  obtain ⟨x3, hx3, nm3, ty3, p4⟩ := L.srvData
  obtain ⟨x9, hx9, nm9, ty9, p10⟩ := L.txtData
  have l1 := L.enum.live (by decide) hl
  have l2 := L.ptr.live (by decide) l1
  have l3 := L.srv.live (by decide) l2
  have l4 := p4.live hx3 rfl rfl l3
  have l5 := L.a.live (by decide) l4
  have l6 := L.aaaa.live (by decide) l5
  have l7 := L.addrs.live L.reach6 l6
  have l8 := L.cname.live l7
  have l9 := L.txt.live (by decide) l8
  -- what lasts
  have k4 : ∀ t, t ≠ 33 → Lasts t d3 d4 := fun t ht => p4.lasts fun x hx => by
    rw [hx3] at hx
    cases hx
    rw [ty3]
    exact Ne.symm ht
  have k10 : ∀ t, t ≠ 16 → Lasts t d9 d' := fun t ht => p10.lasts fun x hx => by
    rw [hx9] at hx
    cases hx
    rw [ty9]
    exact Ne.symm ht
  have k48 : ∀ t, t ≠ 1 → t ≠ 28 → Lasts t d4 d9 := fun t t1 t2 =>
    (L.a.lasts t).trans <| (L.aaaa.lasts t).trans <| (L.addrs.lasts L.reach6 t1 t2).trans <| (L.cname.lasts t).trans (L.txt.lasts t)
  have k2 : ∀ t, t ≠ 33 → t ≠ 1 → t ≠ 28 → t ≠ 16 → Lasts t d2 d' := fun t a b c e =>
    (L.srv.lasts t).trans <| (k4 t a).trans <| (k48 t b c).trans (k10 t e)
  have b7 : Backs 5 d d7 := (L.enum.backs (by decide)).trans <| (L.ptr.backs (by decide)).trans <|
    (L.srv.backs (by decide)).trans <| (p4.backs (by show x3.rr.type ≠ 5; omega)).trans <| (L.a.backs (by decide)).trans <|
    (L.aaaa.backs (by decide)).trans (L.addrs.backs L.reach6 (by decide) (by decide))
  refine ⟨?_, ?_, ?_, ?_, ?_⟩
  · have := L.enum.pub (by rw [tlo]; exact h1) hl (by decide) (by decide)
    rw [tlo] at this
    exact (this.lasts (L.ptr.lasts 12)).lasts (k2 12 (by decide) (by decide) (by decide) (by decide))
  · have hap : d1.has s.tlocal 12 → Apart d1 s.tlocal 12 (s.hlocal hostname) := by
      rw [tlo, hlo]
      have he := L.enum
      intro hh r x hx hb hd
      cases he with
      | found => exact h2 (.inl hh) r x hx hb hd
      | made hnn no p _ =>
        have h2 := h2 (by
          obtain ⟨q, z, hz, z1, z2⟩ := hh
          by_cases er : q = r1
          · subst er
            obtain ⟨y, hy, hr⟩ := p.here
            rw [hz] at hy
            cases hy
            rw [hr] at z1
            exact .inr z1.symm
          · rw [p.others q er] at hz
            exact .inl ⟨q, z, hz, z1, z2⟩)
        by_cases er : r = r1
        · subst er
          obtain ⟨y, hy, hr⟩ := p.here
          rw [hx] at hy
          cases hy
          rw [hr] at hd
          rcases hd with hd | hd
          · cases hd
          · injection hd with hd
            exact absurd (hd.trans hlo.symm) hne
        · rw [p.others r er] at hx
          exact h2 r x hx hb hd
    have := L.ptr.pub hap l1 (by decide) (by decide)
    rw [tlo, hlo] at this
    exact this.lasts (k2 12 (by decide) (by decide) (by decide) (by decide))
  · obtain ⟨y, hy, hr⟩ := p4.here
    have : Pub d4 (instanceName (s.nameOf hostname) s.typeOf) 33 fun a =>
        a.rdname = some (s.tgtlocal hostname) ∧ (a.port : Int) = s.port % 65536 ∧ a.priority = 0 ∧ a.weight = 0 := by
      refine ⟨r3, y, hy, by rw [hr, ← hlo]; exact nm3, by rw [hr]; exact ty3, ?_, by rw [hr], ?_, by rw [hr], by rw [hr]⟩
      · intro h0
        rcases l4 r3 y hy h0 with e | e
        · rw [hr] at e
          have : x3.rr.type = 1 := e
          omega
        · rw [hr] at e
          have : x3.rr.type = 28 := e
          omega
      · rw [hr]
        show ((s.port % 65536).toNat : Int) = _
        omega
    exact this.lasts ((k48 33 (by decide) (by decide)).trans (k10 33 (by decide)))
  · obtain ⟨y, hy, hr⟩ := p10.here
    refine ⟨r9, y, hy, by rw [hr, ← hlo]; exact nm9, by rw [hr]; exact ty9, ?_, by rw [hr]⟩
    intro h0
    rw [hr] at h0
    have h0 : x9.rr.ttl = 0 := h0
    rcases l9 r9 x9 hx9 h0 with e | e <;> omega
  · intro a hca
    have hc := L.cname
    rw [hca] at hc
    have hfq := fqdn_rooted (ha a hca)
    have : Pub d8 (rooted a) 5 fun x => x.rdname = some (s.tgtlocal hostname) := by
      generalize hh : some a = ca at hc
      cases hc with
      | none => cases hh
      | @some a' r d8 n =>
        cases hh
        cases n with
        | found hx hb hm =>
          obtain ⟨q, z, hz, zn, zt⟩ := hm.2
          rw [hfq] at zn
          have := b7 q z hz zt
          refine ⟨q, z, hz, zn, zt, fun h0 => ?_, h3 a q z hca this zn zt⟩
          rcases l7 q z hz h0 with e | e <;> omega
        | made hnn _ p _ =>
          obtain ⟨y, hy, e⟩ := p.here
          exact ⟨r, y, hy, by rw [e, hfq], by rw [e], by rw [e]; exact Nat.succ_ne_zero 119, by rw [e]⟩
    exact (this.lasts (L.txt.lasts 5)).lasts (k10 5 (by decide))

/-! ### Addresses -/

theorem Puts.noneLeaving4 {d d' : D Ptrs} {r : Nat} {a : Answer} (p : Puts d d' r a) {host : Bytes} {v4 : List Ip4}
    (ha : a.type = 1 → a.ttl ≠ 0) (h : NoneLeaving4 d host v4) : NoneLeaving4 d' host v4 := by
  intro s y hy hn ht h0
  by_cases e : s = r
  · subst e
    obtain ⟨z, hz, hr⟩ := p.here
    rw [hz] at hy
    cases hy
    rw [hr] at ht h0
    exact absurd h0 (ha ht)
  · rw [p.others s e] at hy
    exact h s y hy hn ht h0

theorem Puts.noneLeaving6 {d d' : D Ptrs} {r : Nat} {a : Answer} (p : Puts d d' r a) {host : Bytes} {v6 : List Ip6}
    (ha : a.type = 28 → a.ttl ≠ 0) (h : NoneLeaving6 d host v6) : NoneLeaving6 d' host v6 := by
  intro s y hy hn ht h0
  by_cases e : s = r
  · subst e
    obtain ⟨z, hz, hr⟩ := p.here
    rw [hz] at hy
    cases hy
    rw [hr] at ht h0
    exact absurd h0 (ha ht)
  · rw [p.others s e] at hy
    exact h s y hy hn ht h0

theorem RecordR.noneLeaving {share : Bool} {o : Option Bytes} {name : Bytes} {type ttl : Nat} {d d' : D Ptrs} {r : Nat}
    (n : RecordR share o name type ttl d r d') (ht : ttl ≠ 0) {host : Bytes} {v4 : List Ip4} {v6 : List Ip6}
    (h : NoneLeaving4 d host v4 ∧ NoneLeaving6 d host v6) : NoneLeaving4 d' host v4 ∧ NoneLeaving6 d' host v6 := by
  cases n with
  | found => exact h
  | made _ _ p _ => exact ⟨p.noneLeaving4 (fun _ => ht) h.1, p.noneLeaving6 (fun _ => ht) h.2⟩

/-- C63: the host of the service has exactly the addresses of the interface.  Missing: addresses whose
records are being withdrawn (as in C38). -/
theorem C63_addresses_partial {env : Env} {d : D Ptrs} (h : Reach env d) (cb : Nat) (s : SRec) (hostname : Bytes)
    (v4 : List Ip4) (v6 : List Ip6) (h4 : NoneLeaving4 d (s.tgtlocal hostname) v4) (h6 : NoneLeaving6 d (s.tgtlocal hostname) v6) :
    ∃ d', load cb s hostname (some (v4, v6)) d = .ok ((), d') ∧
      (∀ ip, HasV4 d' (s.tgtlocal hostname) ip ↔ ip ∈ v4) ∧ ∀ ip, HasV6 d' (s.tgtlocal hostname) ip ↔ ip ∈ v6 := by
  obtain ⟨d', hs, e, cs, _, d1, d2, d3, d4, d5, d6, d7, d8, d9, r1, r2, r3, r5, r6, r9, L⟩ := load_call h cb s hostname (some (v4, v6))
  refine ⟨d', e, ?_⟩
  obtain ⟨x3, hx3, nm3, ty3, p4⟩ := L.srvData
  obtain ⟨x9, hx9, nm9, ty9, p10⟩ := L.txtData
  have n3 := L.srv.noneLeaving (by decide) <| L.ptr.noneLeaving (by decide) <| L.enum.noneLeaving (by decide) ⟨h4, h6⟩
  have n4 : NoneLeaving4 d4 (s.tgtlocal hostname) v4 ∧ NoneLeaving6 d4 (s.tgtlocal hostname) v6 :=
    ⟨p4.noneLeaving4 (fun (ht : x3.rr.type = 1) => by omega) n3.1, p4.noneLeaving6 (fun (ht : x3.rr.type = 28) => by omega) n3.2⟩
  have n6 := L.aaaa.noneLeaving (by decide) (L.a.noneLeaving (by decide) n4)
  have fwd : ∀ t, t ≠ 16 → Lasts t d7 d' := fun t ht => (L.cname.lasts t).trans <| (L.txt.lasts t).trans <| p10.lasts fun x hx => by
    rw [hx9] at hx
    cases hx
    rw [ty9]
    exact Ne.symm ht
  have cnb : ∀ t, t ≠ 5 → Backs t d7 d8 := fun t ht => by
    have := L.cname
    generalize s.cname = o at this
    cases this with
    | none => exact fun _ _ hy _ => hy
    | some n => exact n.backs (Ne.symm ht)
  have bwd : ∀ t, t ≠ 5 → t ≠ 16 → Backs t d7 d' := fun t h5 ht => (cnb t h5).trans <| (L.txt.backs (Ne.symm ht)).trans <|
    p10.backs (by show x9.rr.type ≠ t; rw [ty9]; exact Ne.symm ht)
  have hm : ∃ r x, d6.c.recs r = some x ∧ (x.rr.type = 1 ∨ x.rr.type = 28) ∧ x.rr.name = s.tgtlocal hostname := by
    obtain ⟨x, hx, hn, ht⟩ := L.aaaa.named
    exact ⟨_, x, hx, .inr ht, hn⟩
  have key : (∀ ip, HasV4 d7 (s.tgtlocal hostname) ip ↔ ip ∈ v4) ∧ ∀ ip, HasV6 d7 (s.tgtlocal hostname) ip ↔ ip ∈ v6 := by
    have ha := L.addrs
    cases ha with
    | some e => exact (C38_interface_partial L.reach6 e).1 _ hm n6.1 n6.2
  constructor
  · intro ip
    rw [← key.1 ip]
    constructor
    · rintro ⟨r, x, hx, h1, h2, h3⟩
      exact ⟨r, x, bwd 1 (by decide) (by decide) r x hx h2, h1, h2, h3⟩
    · rintro ⟨r, x, hx, h1, h2, h3, h4⟩
      obtain ⟨y, hy, e⟩ := fwd 1 (by decide) r x hx h2
      exact ⟨r, y, hy, by rw [e]; exact h1, by rw [e]; exact h2, by rw [e]; exact h3, by rw [e]; exact h4⟩
  · intro ip
    rw [← key.2 ip]
    constructor
    · rintro ⟨r, x, hx, h1, h2, h3⟩
      exact ⟨r, x, bwd 28 (by decide) (by decide) r x hx h2, h1, h2, h3⟩
    · rintro ⟨r, x, hx, h1, h2, h3, h4⟩
      obtain ⟨y, hy, e⟩ := fwd 28 (by decide) r x hx h2
      exact ⟨r, y, hy, by rw [e]; exact h1, by rw [e]; exact h2, by rw [e]; exact h3, by rw [e]; exact h4⟩

/-! ### TXT lines -/

theorem line_split {t : Bytes} (h : (0x3D : UInt8) ∈ t) :
    t = t.takeWhile (· != 0x3D) ++ 0x3D :: (t.dropWhile (· != 0x3D)).drop 1 := by
  induction t with
  | nil => cases h
  | cons a t ih =>
    by_cases ha : a = 0x3D
    · subst ha
      simp
    · have hb : (a != 0x3D) = true := by simpa using ha
      have hi := ih (by simpa [Ne.symm ha] using h)
      rw [List.takeWhile_cons, List.dropWhile_cons, if_pos hb, if_pos hb, List.cons_append, ← hi]

theorem line_key {k v : Bytes} (h : (0x3D : UInt8) ∉ k) :
    (k ++ 0x3D :: v).takeWhile (· != 0x3D) = k ∧ ((k ++ 0x3D :: v).dropWhile (· != 0x3D)).drop 1 = v := by
  have := SdTxt.splitEq_keyval k v h
  unfold SdTxt.splitEq at this
  injection this with a b
  refine ⟨a, ?_⟩
  have hne : ∀ x ∈ k, (x != 0x3D) = true := by
    intro x hx; simp only [bne_iff_ne, ne_eq]; rintro rfl; exact h hx
  rw [List.dropWhile_append_of_pos hne]
  simp

open Xht in
theorem txt_from (k : Bytes) : ∀ (lines : List Bytes) (i : Nat) (cur : Option Xht.View),
    (txtOps lines i).foldl (effect k) cur = cur ∨ ∃ l ∈ lines, (0x3D : UInt8) ∈ l ∧ l.takeWhile (· != 0x3D) = k ∧
      ∃ a, (txtOps lines i).foldl (effect k) cur = some (.ptr a ((l.dropWhile (· != 0x3D)).drop 1))
  | [], _, _ => .inl rfl
  | t :: rest, i, cur => by
    unfold txtOps
    split
    · rename_i ht
      rw [List.foldl_cons]
      rcases txt_from k rest (i + 1) (effect k cur (.set (2 * i) (t.takeWhile (· != 0x3D))
        (some (2 * i + 1, (t.dropWhile (· != 0x3D)).drop 1)))) with h | ⟨l, hl, h⟩
      · rw [h]
        by_cases hk : t.takeWhile (· != 0x3D) = k
        · exact .inr ⟨t, by simp, ht, hk, 2 * i + 1, by simp [effect, hk]⟩
        · exact .inl (by simp [effect, hk])
      · exact .inr ⟨l, by simp [hl], h⟩
    · rcases txt_from k rest (i + 1) cur with h | ⟨l, hl, h⟩
      · exact .inl h
      · exact .inr ⟨l, by simp [hl], h⟩

open Xht in
theorem txt_last (k : Bytes) (hk : (0x3D : UInt8) ∉ k) : ∀ (lines : List Bytes) (i : Nat) (cur : Option Xht.View),
    (∃ v a, LineValue lines k (some v) ∧ (txtOps lines i).foldl (effect k) cur = some (.ptr a v)) ∨
      (LineValue lines k none ∧ (txtOps lines i).foldl (effect k) cur = cur)
  | [], _, _ => .inr ⟨(by intro _ h; cases h), rfl⟩
  | t :: rest, i, cur => by
    have ext : ∀ {v : Bytes}, LineValue rest k (some v) → LineValue (t :: rest) k (some v) := by
      rintro v ⟨pre, post, e, h⟩
      exact ⟨t :: pre, post, by rw [e]; rfl, h⟩
    unfold txtOps
    split
    · rename_i ht
      rw [List.foldl_cons]
      rcases txt_last k hk rest (i + 1) (effect k cur (.set (2 * i) (t.takeWhile (· != 0x3D))
        (some (2 * i + 1, (t.dropWhile (· != 0x3D)).drop 1)))) with ⟨v, a, h1, h2⟩ | ⟨h1, h2⟩
      · exact .inl ⟨v, a, ext h1, h2⟩
      · rw [h2]
        by_cases he : t.takeWhile (· != 0x3D) = k
        · have := line_split ht
          rw [he] at this
          exact .inl ⟨_, 2 * i + 1, ⟨[], rest, by rw [← this]; rfl, h1⟩, by simp [effect, he]⟩
        · refine .inr ⟨?_, by simp [effect, he]⟩
          intro l hl v
          rcases List.mem_cons.mp hl with rfl | hl
          · rintro rfl
            exact he (line_key hk).1
          · exact h1 l hl v
    · rename_i ht
      rcases txt_last k hk rest (i + 1) cur with ⟨v, a, h1, h2⟩ | ⟨h1, h2⟩
      · exact .inl ⟨v, a, ext h1, h2⟩
      · refine .inr ⟨?_, h2⟩
        intro l hl v
        rcases List.mem_cons.mp hl with rfl | hl
        · rintro rfl
          exact ht (by simp)
        · exact h1 l hl v

/-- The lines read from a file are C strings and short. -/
def TxtFits (s : SRec) : Prop := ∀ t ∈ s.txt, t.length ≤ 251 ∧ (0 : UInt8) ∉ t

theorem chomp_mem (line l : Bytes) (h : chomp line = .ok (some l)) : ∀ c ∈ l, c ∈ line := by
  unfold chomp at h
  split at h
  · cases h
  · split at h
    · cases h
    · cases h
      intro c hc
      rw [List.mem_reverse] at hc
      have := (List.dropWhile_suffix (fun c : UInt8 => c == 0x0A) (l := line.reverse)).subset hc
      exact List.mem_reverse.mp this

theorem readLine_txtFits (line : Bytes) (s s' : SRec) (hl : line.length ≤ 255) (hz : (0 : UInt8) ∉ line) (h : readLine line s = .ok s')
    (hf : TxtFits s) : TxtFits s' := by
  cases hc : chomp line with
  | oob => unfold readLine at h; rw [hc] at h; cases h
  | ok o =>
    cases o with
    | none => unfold readLine at h; rw [hc] at h; cases h; exact hf
    | some l =>
      have hl' := chomp_length line l hc
      rcases readLine_cases l line s hc with ⟨k, v, ⟨sep, -, e, -⟩, hr⟩ | ⟨-, hr⟩
      · rw [hr] at h
        cases h
        have hlen : l.length = k.length + 1 + v.length := by rw [e]; simp; omega
        intro t ht
        simp only [assign] at ht
        split at ht
        · rename_i hk
          rcases List.mem_append.mp ht with ht | ht
          · exact hf t ht
          · rw [List.mem_singleton] at ht
            subst ht
            obtain ⟨rfl, -⟩ := hk
            refine ⟨by simp at hlen; omega, fun h0 => hz ?_⟩
            exact chomp_mem line l hc 0 (by rw [e]; simp [h0])
        · exact hf t ht
      · rw [hr] at h; cases h; exact hf

theorem cstr_nul (b : Bytes) : (0 : UInt8) ∉ cstr b := by
  intro h
  unfold cstr at h
  have := List.all_takeWhile (p := (· != (0 : UInt8))) (l := b)
  rw [List.all_eq_true] at this
  exact absurd (this _ h) (by decide)

theorem parseLoop_txtFits (n : Nat) (f : Bytes) (s s' : SRec) (h : parseLoop n f s = .ok s') (hf : TxtFits s) :
    TxtFits s' := by
  induction n generalizing f s with
  | zero => cases h; exact hf
  | succ n ih =>
    rw [parseLoop] at h
    split at h
    · cases h; exact hf
    · have hlen : (cstr (CLib.fgets 256 f).1).length ≤ 255 := by
        refine Nat.le_trans (cstr_length _) ?_
        simp only [CLib.fgets, List.length_take]
        omega
      split at h
      · cases h
      · rename_i s1 hr
        exact ih _ _ h (readLine_txtFits _ _ _ hlen (cstr_nul _) hr hf)

/-- C63 for lines that need not come from a file. -/
theorem txt_decoded (s : SRec) (hf : TxtFits s) (hk : ∀ l ∈ s.txt, l.head? ≠ some 0x3D) :
    ∃ r, SdTxt.txt2sd s.txtData s.txtData.length = .ok r ∧ ∀ k, (0x3D : UInt8) ∉ k → LineValue s.txt k (SdTxt.getOpt r k) := by
  have hw := Xht.C16_walk_visits_each_once 11 (by decide) (txtOps s.txt 0)
  have hm := fun k => Xht.C14_table_is_a_map 11 (by decide) (txtOps s.txt 0) k
  have fits : ∀ kv ∈ Xht.walk (Xht.run (Xht.new 11) (txtOps s.txt 0)), SdTxt.Fits kv.1.str kv.2.str := by
    intro kv hkv
    have h1 : kv.2 ∈ (Xht.get (Xht.run (Xht.new 11) (txtOps s.txt 0)) kv.1.str).toList := by
      rw [← hw]
      exact List.mem_map.mpr ⟨kv, List.mem_filter.mpr ⟨hkv, by simp⟩, rfl⟩
    have h2 : Xht.get (Xht.run (Xht.new 11) (txtOps s.txt 0)) kv.1.str = some kv.2 := by simpa using h1
    have h3 := hm kv.1.str
    rw [h2] at h3
    unfold Xht.lastFor at h3
    rcases txt_from kv.1.str s.txt 0 none with h | ⟨l, hl, he, hk', a, h⟩
    · rw [h] at h3; cases h3
    · rw [h] at h3
      have hv : kv.2.str = (l.dropWhile (· != 0x3D)).drop 1 := by
        have h4 : Xht.view kv.2 = .ptr a ((l.dropWhile (· != 0x3D)).drop 1) := by simpa using h3
        unfold Xht.view at h4
        split at h4
        · injection h4
        · cases h4
      have hs := line_split he
      rw [hk', ← hv] at hs
      obtain ⟨f1, f2⟩ := hf l hl
      rw [hs] at f1 f2
      simp only [List.length_append, List.length_cons] at f1
      refine ⟨?_, fun h => f2 (by simp [h]), ?_, fun h => f2 (by simp [h]), ?_⟩
      · intro h0
        rw [h0] at hs
        exact hk l hl (by rw [hs]; rfl)
      · intro h0
        rw [← hk'] at h0
        have := List.all_takeWhile (p := (· != (0x3D : UInt8))) (l := l)
        rw [List.all_eq_true] at this
        exact absurd (this _ h0) (by decide)
      · split <;> omega
  obtain ⟨r, hr, hg⟩ := SdTxt.C11_txt_round_trip_partial 11 (by decide) (txtOps s.txt 0) fits
  have hlen := (SdTxt.C13_sd2txt_length (Xht.run (Xht.new 11) (txtOps s.txt 0))).1
  refine ⟨r, by unfold SRec.txtData; rw [hlen]; exact hr, fun k hk' => ?_⟩
  rw [hg k]
  have h3 := hm k
  unfold Xht.lastFor at h3
  rcases txt_last k hk' s.txt 0 none with ⟨v, a, h1, h2⟩ | ⟨h1, h2⟩
  · rw [h2] at h3
    cases hx : Xht.get (Xht.run (Xht.new 11) (txtOps s.txt 0)) k with
    | none => rw [hx] at h3; cases h3
    | some o =>
      rw [hx] at h3
      have h4 : Xht.view o = .ptr a v := by simpa using h3
      have : o.str = v := by
        unfold Xht.view at h4
        split at h4
        · injection h4
        · cases h4
      rw [Option.map_some, this]
      exact h1
  · rw [h2] at h3
    cases hx : Xht.get (Xht.run (Xht.new 11) (txtOps s.txt 0)) k with
    | none => exact h1
    | some o => rw [hx] at h3; cases h3

/-- C63: who decodes the TXT data that is published for a service file finds, for every key, the value of the
last line with that key; lines without `=` are left out.  Missing: lines with an empty key
(`C63_empty_key_counterexample`). -/
theorem C63_txt_partial (file : Bytes) (s : SRec) (hp : parse file = .ok s) (hk : ∀ l ∈ s.txt, l.head? ≠ some 0x3D) :
    ∃ r, SdTxt.txt2sd s.txtData s.txtData.length = .ok r ∧ ∀ k, (0x3D : UInt8) ∉ k → LineValue s.txt k (SdTxt.getOpt r k) :=
  txt_decoded s (parseLoop_txtFits _ _ _ _ hp (by intro t ht; cases ht)) hk

/-! ### Several files -/

theorem Puts.pub {d d' : D Ptrs} {r : Nat} {a : Answer} {x : Rec} (p : Puts d d' r a) (hx : d.c.recs r = some x) {name : Bytes} {type : Nat}
    {q : Answer → Prop} (h : Pub d name type q) (ne : x.rr.name = name → x.rr.type ≠ type) : Pub d' name type q := by
  obtain ⟨s, y, hy, h1, h2, h3⟩ := h
  refine ⟨s, y, ?_, h1, h2, h3⟩
  rw [p.others s (by rintro rfl; rw [hx] at hy; cases hy; exact ne h1 h2)]
  exact hy

theorem load_keeps {env : Env} {d : D Ptrs} (h : Reach env d) (cb : Nat) (s : SRec) (hostname : Bytes)
    (addrs : Option (List Ip4 × List Ip6)) {d' : D Ptrs} (e : load cb s hostname addrs d = .ok ((), d')) {name : Bytes} {type : Nat}
    {q : Answer → Prop} (n : Pub d name type q) (h1 : type ≠ 1) (h2 : type ≠ 28)
    (h3 : type = 33 ∨ type = 16 → s.hlocal hostname ≠ name) : Pub d' name type q := by
  obtain ⟨d'', hs', e', cs, _, d1, d2, d3, d4, d5, d6, d7, d8, d9, r1, r2, r3, r5, r6, r9, L⟩ := load_call h cb s hostname addrs
  rw [e] at e'
  cases e'
  obtain ⟨x3, hx3, nm3, ty3, p4⟩ := L.srvData
  obtain ⟨x9, hx9, nm9, ty9, p10⟩ := L.txtData
  have n3 := ((n.lasts (L.enum.lasts type)).lasts (L.ptr.lasts type)).lasts (L.srv.lasts type)
  have n4 := p4.pub hx3 n3 fun e ht => h3 (.inl (ht.symm.trans ty3)) (nm3.symm.trans e)
  have n9 := ((((n4.lasts (L.a.lasts type)).lasts (L.aaaa.lasts type)).lasts (L.addrs.lasts L.reach6 h1 h2)).lasts (L.cname.lasts type)).lasts
    (L.txt.lasts type)
  exact p10.pub hx9 n9 fun e ht => h3 (.inr (ht.symm.trans ty9)) (nm9.symm.trans e)

/-- C63: loading a service file leaves the services of other names that are advertised already. -/
theorem C63_keeps_others {env : Env} {d : D Ptrs} (h : Reach env d) (cb : Nat) (s : SRec) (hostname : Bytes)
    (addrs : Option (List Ip4 × List Ip6)) {name type host : Bytes} {port : Int} {txt : Bytes} {alias : Option Bytes}
    (ad : Advertised d name type host port txt alias) (ne : s.hlocal hostname ≠ instanceName name type) :
    ∃ d', load cb s hostname addrs d = .ok ((), d') ∧ Advertised d' name type host port txt alias := by
  obtain ⟨d', _, e, _⟩ := load_call h cb s hostname addrs
  refine ⟨d', e, ?_, ?_, ?_, ?_, fun a ha => ?_⟩
  · exact load_keeps h cb s hostname addrs e ad.enum (by decide) (by decide) (by simp)
  · exact load_keeps h cb s hostname addrs e ad.browse (by decide) (by decide) (by simp)
  · exact load_keeps h cb s hostname addrs e ad.service (by decide) (by decide) fun _ => ne
  · exact load_keeps h cb s hostname addrs e ad.text (by decide) (by decide) fun _ => ne
  · exact load_keeps h cb s hostname addrs e (ad.alias a ha) (by decide) (by decide) (by simp)

/-- C63: reading the files of a directory ends normally, as a sequence of calls of the library, and the result
tells whether all could be opened.  Missing: files with an empty line (`C51_empty_line_counterexample`). -/
theorem C63_files_partial {env : Env} (cb : Nat) (hostname : Bytes) (addrs : Nat → Option (List Ip4 × List Ip6)) :
    ∀ (files : List (Option Bytes)) (i : Nat) {d : D Ptrs}, Reach env d → (∀ f, some f ∈ files → ∃ s, parse f = .ok s) →
      ∃ v d' hs, loadFiles cb hostname addrs files i d = .ok (v, d') ∧ Calls env d hs d' ∧ (∀ k ∈ hs, k.1.ofLoad = true) ∧
        (v = 0 ↔ none ∉ files) ∧ v ≤ 1
  | [], _, d, _, _ => ⟨0, d, [], rfl, .nil, by simp, by simp, by simp⟩
  | f :: files, i, d, h, hp => by
    have one : ∃ v d' hs, loadFile cb f hostname (addrs i) d = .ok (v, d') ∧ Calls env d hs d' ∧ (∀ k ∈ hs, k.1.ofLoad = true) ∧
        (v = 0 ↔ f ≠ none) ∧ v ≤ 1 := by
      cases f with
      | none => exact ⟨1, d, [], rfl, .nil, by simp, by simp, by simp⟩
      | some b =>
        obtain ⟨s, e⟩ := hp b (by simp)
        obtain ⟨d', hs, e', cs, o, _⟩ := load_call h cb s hostname (addrs i)
        refine ⟨0, d', hs, ?_, cs, o, by simp, by simp⟩
        unfold loadFile
        simp only [e]
        rw [M.bind_ok e']
        rfl
    obtain ⟨v, d1, hs1, e1, c1, o1, z1, l1⟩ := one
    obtain ⟨w, d2, hs2, e2, c2, o2, z2, l2⟩ := C63_files_partial cb hostname addrs files (i + 1) (c1.reach h) fun g m => hp g (by simp [m])
    refine ⟨v ||| w, d2, hs1 ++ hs2, ?_, c1.append c2, ?_, ?_, ?_⟩
    · unfold loadFiles
      rw [M.bind_ok e1, M.bind_ok e2]
      rfl
    · intro k m
      rcases List.mem_append.mp m with m | m
      · exact o1 k m
      · exact o2 k m
    · have : v ||| w = 0 ↔ v = 0 ∧ w = 0 := Nat.or_eq_zero_iff
      rw [this, z1, z2]
      simp [eq_comm]
    · have hv : v = 0 ∨ v = 1 := by omega
      have hw : w = 0 ∨ w = 1 := by omega
      rcases hv with rfl | rfl <;> rcases hw with rfl | rfl <;> decide

/-! ### Loading again -/

theorem SameRecords.pub {d d' : D Ptrs} (h : SameRecords d d') {name : Bytes} {type : Nat} {p : Answer → Prop}
    (n : Pub d name type p) : Pub d' name type p := by
  obtain ⟨r, x, hx, h1, h2, h3, h4⟩ := n
  have e := h r
  rw [hx] at e
  cases hy : d'.c.recs r with
  | none => rw [hy] at e; cases e
  | some y =>
    rw [hy] at e
    have e : y.rr = x.rr := by simpa using e
    exact ⟨r, y, hy, by rw [e]; exact h1, by rw [e]; exact h2, by rw [e]; exact h3, by rw [e]; exact h4⟩

theorem SameRecords.others {d d' : D Ptrs} (h : SameRecords d d') : SameOthers d d' := by
  intro a _ _ r
  have e := h r
  constructor
  · rintro ⟨x, hx, rfl⟩
    rw [hx] at e
    cases hy : d.c.recs r with
    | none => rw [hy] at e; cases e
    | some y =>
      rw [hy] at e
      exact ⟨y, rfl, (by simpa using e : x.rr = y.rr).symm⟩
  · rintro ⟨x, hx, rfl⟩
    rw [hx] at e
    cases hy : d'.c.recs r with
    | none => rw [hy] at e; cases e
    | some y =>
      rw [hy] at e
      exact ⟨y, rfl, (by simpa using e : y.rr = x.rr)⟩

theorem SameOthers.trans {d1 d2 d3 : D Ptrs} (a : SameOthers d1 d2) (b : SameOthers d2 d3) : SameOthers d1 d3 :=
  fun x t1 t2 r => (b x t1 t2 r).trans (a x t1 t2 r)

theorem SameOthers.pub {d d' : D Ptrs} (h : SameOthers d d') {name : Bytes} {type : Nat} {p : Answer → Prop}
    (n : Pub d name type p) (t1 : type ≠ 1) (t2 : type ≠ 28) : Pub d' name type p := by
  obtain ⟨r, x, hx, h1, h2, h3, h4⟩ := n
  obtain ⟨y, hy, e⟩ := (h x.rr (by rw [h2]; exact t1) (by rw [h2]; exact t2) r).mpr ⟨x, hx, rfl⟩
  exact ⟨r, y, hy, by rw [e]; exact h1, by rw [e]; exact h2, by rw [e]; exact h3, by rw [e]; exact h4⟩

theorem RecordR.same {share : Bool} {host name : Bytes} {type ttl : Nat} {d d' : D Ptrs} {r : Nat}
    (n : RecordR share (some host) name type ttl d r d') (h : Pub d name type fun a => a.rdname = some host) : d' = d := by
  cases n with
  | found => rfl
  | made _ no =>
    obtain ⟨s, y, hy, h1, h2, _, h4⟩ := h
    exact absurd h4 (no s y hy h1 h2).2

theorem RecordR.same_none {share : Bool} {name : Bytes} {type ttl : Nat} {d d' : D Ptrs} {r : Nat} {p : Answer → Prop}
    (n : RecordR share none name type ttl d r d') (h : Pub d name type p) : d' = d := by
  cases n with
  | found => rfl
  | made _ no =>
    obtain ⟨s, y, hy, h1, h2, _, h4⟩ := h
    exact absurd (no s y hy h1 h2) id

theorem Puts.same {d d' : D Ptrs} {r : Nat} {x : Rec} {a : Answer} (p : Puts d d' r a) (hx : d.c.recs r = some x) (ha : a = x.rr) :
    SameRecords d d' := by
  intro s
  by_cases e : s = r
  · subst e
    obtain ⟨y, hy, hr⟩ := p.here
    rw [hy, hx, Option.map_some, Option.map_some, hr, ha]
  · rw [p.others s e]

/-- Records of the types are exactly the same. -/
def Same (type : Nat) (d d' : D Ptrs) : Prop := ∀ s y, y.rr.type = type → (d'.c.recs s = some y ↔ d.c.recs s = some y)

theorem Puts.sameType {d d' : D Ptrs} {r : Nat} {a : Answer} (p : Puts d d' r a) {type : Nat}
    (h : ∀ x, d.c.recs r = some x → x.rr.type ≠ type) (ha : a.type ≠ type) : Same type d d' := by
  intro s y ht
  by_cases e : s = r
  · subst e
    constructor
    · intro hy
      obtain ⟨z, hz, hr⟩ := p.here
      rw [hz] at hy
      cases hy
      rw [hr] at ht
      exact absurd ht ha
    · intro hy
      exact absurd ht (h y hy)
  · rw [p.others s e]

theorem RecordR.sameType {share : Bool} {host : Option Bytes} {name : Bytes} {type ttl : Nat} {d d' : D Ptrs} {r : Nat}
    (n : RecordR share host name type ttl d r d') {t : Nat} (h : type ≠ t) : Same t d d' := by
  cases n with
  | found => exact fun _ _ _ => Iff.rfl
  | made hn _ p _ => exact p.sameType (fun x hx => by rw [hn] at hx; cases hx) h

theorem Same.trans {t : Nat} {d1 d2 d3 : D Ptrs} (a : Same t d1 d2) (b : Same t d2 d3) : Same t d1 d3 :=
  fun s y ht => (b s y ht).trans (a s y ht)

theorem Settled.congr {d d' : D Ptrs} {host : Bytes} {v4 : List Ip4} {v6 : List Ip6} (h : Settled d host v4 v6)
    (h1 : Same 1 d d') (h2 : Same 28 d d') : Settled d' host v4 v6 := by
  refine ⟨fun n hn => ?_, fun r x hx ht h0 => h.stay4 r x ((h1 r x ht).mp hx) ht h0,
    fun r x hx ht h0 => h.stay6 r x ((h2 r x ht).mp hx) ht h0⟩
  have := h.exact n (by
    rcases hn with hn | ⟨r, x, hx, ht, hn⟩
    · exact .inl hn
    · rcases ht with ht | ht
      · exact .inr ⟨r, x, (h1 r x ht).mp hx, .inl ht, hn⟩
      · exact .inr ⟨r, x, (h2 r x ht).mp hx, .inr ht, hn⟩)
  refine ⟨fun ip => ?_, fun ip => ?_⟩
  · rw [← this.1 ip]
    constructor
    · rintro ⟨r, x, hx, a, b, c⟩; exact ⟨r, x, (h1 r x b).mp hx, a, b, c⟩
    · rintro ⟨r, x, hx, a, b, c⟩; exact ⟨r, x, (h1 r x b).mpr hx, a, b, c⟩
  · rw [← this.2 ip]
    constructor
    · rintro ⟨r, x, hx, a, b, c⟩; exact ⟨r, x, (h2 r x b).mp hx, a, b, c⟩
    · rintro ⟨r, x, hx, a, b, c⟩; exact ⟨r, x, (h2 r x b).mpr hx, a, b, c⟩

/-- Where all of a host's addresses are there, setting them again does nothing but take back new ones. -/
theorem _root_.Mdns.Updated.settled {host : Bytes} {type : Nat} {want : List Ip} {base c c' : Core} {l l' : Lists} {Ph : Rec → Prop}
    (u : Updated host type want c l c' l')
    (h1 : ∀ r x, base.recs r = some x → c.recs r = some x) (h2 : ∀ r x, base.recs r = none → c.recs r = some x → Ph x)
    (hp : ∀ x, Ph x → x.Probing)
    (all : ∀ w ∈ want, ∃ r x, base.recs r = some x ∧ x.Of host type ∧ x.rr.addrOf type = w)
    (stay : ∀ r x, base.recs r = some x → x.Of host type → x.rr.addrOf type ∈ want ∨ (x.rr.ttl = 0 ∧ ¬ x.Probing)) :
    (∀ r x, base.recs r = some x → c'.recs r = some x) ∧ ∀ r x, base.recs r = none → c'.recs r = some x → Ph x := by
  refine ⟨fun r x hx => ?_, fun r x hb hx => ?_⟩
  · have hc := h1 r x hx
    by_cases hn : x.Of host type ∧ x.rr.addrOf type ∉ want
    · obtain ⟨h0, hpr⟩ := (stay r x hx hn.1).resolve_left hn.2
      rw [(u.drop r x hc hn.1 hn.2).2 hpr]
      congr 1
      rw [← h0]
    · rw [← hc]
      exact congrArg View.x (u.keep r x hc hn)
  · rcases u.back hx with h | h | ⟨_, _, _, y, hy, hpr, _⟩
    · obtain ⟨_, _, hw, no⟩ := u.new r x h.1 hx
      obtain ⟨s, y, hy, ho, ha⟩ := all _ hw
      exact absurd ha (no s y (h1 s y hy) ho)
    · exact h2 r x hb h.1
    · exact absurd (hp y (h2 r y hb hy)) hpr

theorem _root_.Mdns.IfA.settled {v4 : List Ip4} {v6 : List Ip6} {hosts : List Bytes} {base c c' : Core} {l l' : Lists} {Ph : Rec → Prop}
    (n : IfA v4 v6 hosts c l c' l')
    (h1 : ∀ r x, base.recs r = some x → c.recs r = some x) (h2 : ∀ r x, base.recs r = none → c.recs r = some x → Ph x)
    (hp : ∀ x, Ph x → x.Probing)
    (all4 : ∀ h ∈ hosts, ∀ w ∈ v4.map Ip.v4, ∃ r x, base.recs r = some x ∧ x.Of h 1 ∧ x.rr.addrOf 1 = w)
    (all6 : ∀ h ∈ hosts, ∀ w ∈ v6.map Ip.v6, ∃ r x, base.recs r = some x ∧ x.Of h 28 ∧ x.rr.addrOf 28 = w)
    (stay4 : ∀ h ∈ hosts, ∀ r x, base.recs r = some x → x.Of h 1 → x.rr.addrOf 1 ∈ v4.map Ip.v4 ∨ (x.rr.ttl = 0 ∧ ¬ x.Probing))
    (stay6 : ∀ h ∈ hosts, ∀ r x, base.recs r = some x → x.Of h 28 → x.rr.addrOf 28 ∈ v6.map Ip.v6 ∨ (x.rr.ttl = 0 ∧ ¬ x.Probing)) :
    (∀ r x, base.recs r = some x → c'.recs r = some x) ∧ ∀ r x, base.recs r = none → c'.recs r = some x → Ph x := by
  induction n with
  | nil => exact ⟨h1, h2⟩
  | @cons host hosts c c1 c2 c' l l1 l2 l' a b n ih =>
    have hm : host ∈ host :: hosts := List.mem_cons_self ..
    obtain ⟨p1, p2⟩ := (a.updated (fits4 v4)).settled h1 h2 hp (all4 host hm) (stay4 host hm)
    obtain ⟨q1, q2⟩ := (b.updated (fits6 v6)).settled p1 p2 hp (all6 host hm) (stay6 host hm)
    exact ih q1 q2 (fun h m => all4 h (List.mem_cons_of_mem _ m)) (fun h m => all6 h (List.mem_cons_of_mem _ m))
      (fun h m => stay4 h (List.mem_cons_of_mem _ m)) (fun h m => stay6 h (List.mem_cons_of_mem _ m))

theorem AddrsR.ifa {env : Env} {d d' : D Ptrs} (h : Reach env d) {v4 : List Ip4} {v6 : List Ip6} (n : AddrsR env d (Option.some (v4, v6)) d') :
    IfA v4 v6 (d.c.hostsOf d.c.allPublished []) d.c d.lists d'.c d'.lists := by
  cases n with
  | some e =>
    have hd := h.did (o := .setInterface v4 v6) trivial e
    generalize d'.c = c', d'.lists = l' at hd
    cases hd with
    | setInterface n => exact n

/-- A record of the host made for its addresses. -/
def Place (host : Bytes) (v4 : List Ip4) (v6 : List Ip6) (x : Rec) : Prop :=
  x.rr.ttl ≠ 0 ∧ x.Probing ∧ (x.Of host 1 ∧ v4 = [] ∨ x.Of host 28 ∧ v6 = [])

theorem place_addrs {env : Env} {d4 d5 d6 d7 : D Ptrs} {host : Bytes} {r5 r6 : Nat} {v4 : List Ip4} {v6 : List Ip6}
    (hs : Settled d4 host v4 v6) (a : RecordR false none host 1 120 d4 r5 d5) (b : RecordR false none host 28 120 d5 r6 d6)
    (hr : Reach env d6) (n : AddrsR env d6 (some (v4, v6)) d7) : d7.c.recs = d4.c.recs := by
  have p5 : (∀ r x, d4.c.recs r = some x → d5.c.recs r = some x) ∧
      ∀ r x, d4.c.recs r = none → d5.c.recs r = some x → Place host v4 v6 x := by
    cases a with
    | found => exact ⟨fun _ _ h => h, fun r x h1 h2 => by rw [h1] at h2; cases h2⟩
    | made hn no p pr =>
      refine ⟨fun r x hx => ?_, fun r x h1 h2 => ?_⟩
      · rw [p.others r (by rintro rfl; rw [hn] at hx; cases hx)]
        exact hx
      · by_cases e : r = r5
        · subst e
          obtain ⟨y, hy, hyr⟩ := p.here
          obtain ⟨z, hz, hp⟩ := pr rfl rfl
          rw [h2] at hy hz
          cases hy
          cases hz
          refine ⟨by rw [hyr]; exact Nat.succ_ne_zero 119, hp, .inl ⟨⟨by rw [hyr], by rw [hyr]⟩, ?_⟩⟩
          cases v4 with
          | nil => rfl
          | cons ip v4 =>
            obtain ⟨s, y, hy, q1, q2, _⟩ := ((hs.exact host (.inl rfl)).1 ip).mpr (by simp)
            exact absurd (no s y hy q1 q2) id
        · rw [p.others r e] at h2
          rw [h1] at h2
          cases h2
  have p6 : (∀ r x, d4.c.recs r = some x → d6.c.recs r = some x) ∧
      ∀ r x, d4.c.recs r = none → d6.c.recs r = some x → Place host v4 v6 x := by
    cases b with
    | found => exact p5
    | made hn no p pr =>
      refine ⟨fun r x hx => ?_, fun r x h1 h2 => ?_⟩
      · have := p5.1 r x hx
        rw [p.others r (by rintro rfl; rw [hn] at this; cases this)]
        exact this
      · by_cases e : r = r6
        · subst e
          obtain ⟨y, hy, hyr⟩ := p.here
          obtain ⟨z, hz, hp⟩ := pr rfl rfl
          rw [h2] at hy hz
          cases hy
          cases hz
          refine ⟨by rw [hyr]; exact Nat.succ_ne_zero 119, hp, .inr ⟨⟨by rw [hyr], by rw [hyr]⟩, ?_⟩⟩
          cases v6 with
          | nil => rfl
          | cons ip v6 =>
            obtain ⟨s, y, hy, q1, q2, _⟩ := ((hs.exact host (.inl rfl)).2 ip).mpr (by simp)
            exact absurd (no s y (p5.1 s y hy) q1 q2) id
        · rw [p.others r e] at h2
          exact p5.2 r x h1 h2
  have key := n.ifa hr
  have hosts : ∀ h ∈ d6.c.hostsOf d6.c.allPublished [], h = host ∨
      ∃ r x, d4.c.recs r = some x ∧ (x.rr.type = 1 ∨ x.rr.type = 28) ∧ x.rr.name = h := by
    intro h m
    rcases (mem_hostsOf _ _ _).mp m with m | ⟨r, _, x, hx, ht, hn⟩
    · cases m
    · cases h4 : d4.c.recs r with
      | none =>
        obtain ⟨_, _, q | q⟩ := p6.2 r x h4 hx
        · exact .inl (hn.symm.trans q.1.2)
        · exact .inl (hn.symm.trans q.1.2)
      | some y =>
        have := p6.1 r y h4
        rw [hx] at this
        cases this
        exact .inr ⟨r, x, h4, ht, hn⟩
  have hm : host ∈ d6.c.hostsOf d6.c.allPublished [] := by
    obtain ⟨x, hx, h1, h2⟩ := b.named
    exact (mem_hostsOf _ _ _).mpr (.inr ⟨_, hr.inv.rinv.mem_all hx, x, hx, .inr h2, h1⟩)
  obtain ⟨q1, q2⟩ := IfA.settled (Ph := Place host v4 v6) key p6.1 p6.2 (fun x h => h.2.1)
    (fun h m w hw => by
      obtain ⟨ip, mi, rfl⟩ := List.mem_map.mp hw
      obtain ⟨r, x, hx, ho, _, ha⟩ := has4.mp (((hs.exact h (hosts h m)).1 ip).mpr mi)
      exact ⟨r, x, hx, ho, ha⟩)
    (fun h m w hw => by
      obtain ⟨ip, mi, rfl⟩ := List.mem_map.mp hw
      obtain ⟨r, x, hx, ho, _, ha⟩ := has6.mp (((hs.exact h (hosts h m)).2 ip).mpr mi)
      exact ⟨r, x, hx, ho, ha⟩)
    (fun h m r x hx ho => by
      by_cases h0 : x.rr.ttl = 0
      · exact .inr ⟨h0, (hs.stay4 r x hx ho.1 h0).1⟩
      · refine .inl (List.mem_map.mpr ⟨x.rr.ip, ((hs.exact h (hosts h m)).1 _).mp ⟨r, x, hx, ho.2, ho.1, h0, rfl⟩, ?_⟩)
        exact (addrOf4.mpr rfl).symm)
    (fun h m r x hx ho => by
      by_cases h0 : x.rr.ttl = 0
      · exact .inr ⟨h0, (hs.stay6 r x hx ho.1 h0).1⟩
      · refine .inl (List.mem_map.mpr ⟨x.rr.ip6, ((hs.exact h (hosts h m)).2 _).mp ⟨r, x, hx, ho.2, ho.1, h0, rfl⟩, ?_⟩)
        exact (addrOf6.mpr rfl).symm)
  have nl4 : d6.c.NoneLeaving host 1 (v4.map Ip.v4) := by
    refine NoneLeaving4.core (d := d6) ?_
    intro r x hx hn ht h0
    cases h4 : d4.c.recs r with
    | none => exact absurd h0 (p6.2 r x h4 hx).1
    | some y =>
      have := p6.1 r y h4
      rw [hx] at this
      cases this
      exact (hs.stay4 r x h4 ht h0).2
  have nl6 : d6.c.NoneLeaving host 28 (v6.map Ip.v6) := by
    refine NoneLeaving6.core (d := d6) ?_
    intro r x hx hn ht h0
    cases h4 : d4.c.recs r with
    | none => exact absurd h0 (p6.2 r x h4 hx).1
    | some y =>
      have := p6.1 r y h4
      rw [hx] at this
      cases this
      exact (hs.stay6 r x h4 ht h0).2
  obtain ⟨e4, e6⟩ := key.exact hm nl4 nl6
  funext r
  cases h4 : d4.c.recs r with
  | some x => exact q1 r x h4
  | none =>
    cases h7 : d7.c.recs r with
    | none => rfl
    | some x =>
      obtain ⟨g1, _, ⟨ho, rfl⟩ | ⟨ho, rfl⟩⟩ := q2 r x h4 h7
      · have := (e4 (x.rr.addrOf 1)).mp ⟨r, x, h7, ho, g1, rfl⟩
        cases this
      · have := (e6 (x.rr.addrOf 28)).mp ⟨r, x, h7, ho, g1, rfl⟩
        cases this

theorem srv_same {a : Answer} {port : Nat} {host : Bytes} (h1 : a.priority = 0) (h2 : a.weight = 0) (h3 : a.port = port)
    (h4 : a.rdname = some host) : ({ a with priority := 0, weight := 0, port := port, rdname := some host } : Answer) = a := by
  cases a
  simp_all

theorem txt_same {a : Answer} {b : Bytes} (h : a.rdata = some b) : ({ a with rdata := some b } : Answer) = a := by
  cases a
  simp_all

/-- C64: loading a service file again leaves all records as they are: none is made, withdrawn or
changed.  Missing: if the instance has several SRV or TXT records, of which some differ, or addresses are
being withdrawn that the interface has. -/
theorem C64_again_partial {env : Env} {d : D Ptrs} (h : Reach env d) (cb : Nat) (s : SRec) (hostname : Bytes)
    (v4 : List Ip4) (v6 : List Ip6)
    (hn : (instanceName (s.nameOf hostname) s.typeOf).length ≤ 255)
    (ha : ∀ a, s.cname = some a → (rooted a).length ≤ 255)
    (hs : Settled d (s.tgtlocal hostname) v4 v6)
    (ad : Advertised d (s.nameOf hostname) s.typeOf (s.tgtlocal hostname) s.port s.txtData s.cname)
    (h33 : AtMostOne d (instanceName (s.nameOf hostname) s.typeOf) 33) (h16 : AtMostOne d (instanceName (s.nameOf hostname) s.typeOf) 16) :
    ∃ d', load cb s hostname (some (v4, v6)) d = .ok ((), d') ∧ Reach env d' ∧ SameRecords d d' := by
  obtain ⟨d', hs', e, cs, _, d1, d2, d3, d4, d5, d6, d7, d8, d9, r1, r2, r3, r5, r6, r9, L⟩ := load_call h cb s hostname (some (v4, v6))
  refine ⟨d', e, cs.reach h, ?_⟩
  have ht : (typeName s.typeOf).length ≤ 255 := by
    simp [instanceName, typeName] at hn ⊢
    omega
  have hlo := hlocal_eq hn
  have tlo := tlocal_eq ht
  obtain ⟨x3, hx3, nm3, ty3, p4⟩ := L.srvData
  obtain ⟨x9, hx9, nm9, ty9, p10⟩ := L.txtData
  have e1 : d1 = d := L.enum.same (by rw [tlo]; exact ad.enum)
  subst e1
  have e2 : d2 = d1 := L.ptr.same (by rw [tlo, hlo]; exact ad.browse)
  subst e2
  have e3 : d3 = d2 := L.srv.same_none (by rw [hlo]; exact ad.service)
  subst e3
  have s4 : SameRecords d3 d4 := by
    obtain ⟨q, z, hz, z1, z2, _, z4, z5, z6, z7⟩ := ad.service
    have eq : q = r3 := h33 q z r3 x3 hz hx3 z1 z2 (nm3.trans hlo) ty3
    subst eq
    rw [hx3] at hz
    cases hz
    refine p4.same hx3 (srv_same z6 z7 ?_ z4)
    unfold SRec.portOf
    omega
  have k4 : ∀ t, t ≠ 33 → Same t d3 d4 := fun t ht => p4.sameType
    (fun x hx => by rw [hx3] at hx; cases hx; rw [ty3]; exact Ne.symm ht) (by show x3.rr.type ≠ t; rw [ty3]; exact Ne.symm ht)
  have e7 : d7.c.recs = d4.c.recs := place_addrs (hs.congr (k4 1 (by decide)) (k4 28 (by decide))) L.a L.aaaa L.reach6 L.addrs
  have s7 : SameRecords d3 d7 := fun r => by rw [e7]; exact s4 r
  have e8 : d8 = d7 := by
    have hc := L.cname
    have hal := ad.alias
    generalize s.cname = o at hc hal ha
    cases hc with
    | none => rfl
    | @some a r _ n =>
      have := s7.pub (hal a rfl)
      rw [← fqdn_rooted (ha a rfl)] at this
      exact n.same this
  subst e8
  have e9 : d9 = d8 := L.txt.same_none (s7.pub (by rw [hlo]; exact ad.text))
  subst e9
  have s10 : SameRecords d9 d' := by
    obtain ⟨q, z, hz, z1, z2, _, z4⟩ := s7.pub ad.text
    have eq : q = r9 := by
      have f1 := s7 q
      have f2 := s7 r9
      rw [hz] at f1
      rw [hx9] at f2
      cases g1 : d3.c.recs q with
      | none => rw [g1] at f1; cases f1
      | some u =>
        cases g2 : d3.c.recs r9 with
        | none => rw [g2] at f2; cases f2
        | some v =>
          rw [g1] at f1
          rw [g2] at f2
          have f1 : z.rr = u.rr := by simpa using f1
          have f2 : x9.rr = v.rr := by simpa using f2
          exact h16 q u r9 v g1 g2 (by rw [← f1]; exact z1) (by rw [← f1]; exact z2) (by rw [← f2]; exact nm9.trans hlo)
            (by rw [← f2]; exact ty9)
    subst eq
    rw [hx9] at hz
    cases hz
    exact p10.same hx9 (txt_same z4)
  exact fun r => (s10 r).trans (s7 r)

theorem _root_.Mdns.Updated.named {host : Bytes} {type : Nat} {want : List Ip} {c c' : Core} {l l' : Lists}
    (u : Updated host type want c l c' l') {r : Nat} {x : Rec} (hx : c'.recs r = some x) :
    (∃ y, c.recs r = some y ∧ y.rr.name = x.rr.name ∧ y.rr.type = x.rr.type) ∨ x.rr.name = host := by
  rcases u.back hx with h | h | ⟨_, _, _, y, hy, _, rfl⟩
  · exact .inr h.2.1.2
  · exact .inl ⟨x, h.1, rfl, rfl⟩
  · exact .inl ⟨y, hy, rfl, rfl⟩

theorem _root_.Mdns.IfA.named {v4 : List Ip4} {v6 : List Ip6} {hosts : List Bytes} {c c' : Core} {l l' : Lists}
    (n : IfA v4 v6 hosts c l c' l') {r : Nat} {x : Rec} (hx : c'.recs r = some x) :
    (∃ y, c.recs r = some y ∧ y.rr.name = x.rr.name ∧ y.rr.type = x.rr.type) ∨ x.rr.name ∈ hosts := by
  induction n with
  | nil => exact .inl ⟨x, hx, rfl, rfl⟩
  | @cons host hosts c c1 c2 c' l l1 l2 l' a b n ih =>
    rcases ih hx with ⟨y, hy, e1, e2⟩ | m
    · rcases (b.updated (fits6 v6)).named hy with ⟨z, hz, f1, f2⟩ | m
      · rcases (a.updated (fits4 v4)).named hz with ⟨u, hu, g1, g2⟩ | m
        · exact .inl ⟨u, hu, g1.trans (f1.trans e1), g2.trans (f2.trans e2)⟩
        · exact .inr (by rw [← e1, ← f1, m]; simp)
      · exact .inr (by rw [← e1, m]; simp)
    · exact .inr (by simp [m])

/-- What is being withdrawn was announced and is not wanted. -/
def Gone (type : Nat) (want : List Ip) (c : Core) : Prop :=
  ∀ r x, c.recs r = some x → x.rr.type = type → x.rr.ttl = 0 → ¬ x.Probing ∧ x.rr.addrOf type ∉ want

theorem Gone.updated {host : Bytes} {type : Nat} {want : List Ip} {c c' : Core} {l l' : Lists}
    (u : Updated host type want c l c' l') (h : Gone type want c) : Gone type want c' := by
  intro r x hx ht h0
  rcases u.back hx with g | g | ⟨_, _, q, y, hy, hp, rfl⟩
  · exact absurd h0 g.2.2.1
  · exact h r x g.1 ht h0
  · exact ⟨hp, q⟩

theorem Gone.other {host : Bytes} {type t : Nat} {want w : List Ip} {c c' : Core} {l l' : Lists}
    (u : Updated host t w c l c' l') (ne : type ≠ t) (h : Gone type want c) : Gone type want c' := by
  intro r x hx ht h0
  rcases u.back hx with g | g | g
  · exact absurd (ht.symm.trans g.2.1.1) ne
  · exact h r x g.1 ht h0
  · exact absurd (ht.symm.trans g.1.1) ne

theorem _root_.Mdns.IfA.gone {v4 : List Ip4} {v6 : List Ip6} {hosts : List Bytes} {c c' : Core} {l l' : Lists}
    (n : IfA v4 v6 hosts c l c' l') (h4 : Gone 1 (v4.map Ip.v4) c) (h6 : Gone 28 (v6.map Ip.v6) c) :
    Gone 1 (v4.map Ip.v4) c' ∧ Gone 28 (v6.map Ip.v6) c' := by
  induction n with
  | nil => exact ⟨h4, h6⟩
  | @cons host hosts c c1 c2 c' l l1 l2 l' a b n ih =>
    have ua := a.updated (fits4 v4)
    have ub := b.updated (fits6 v6)
    exact ih ((h4.updated ua).other ub (by decide)) ((h6.other ua (by decide)).updated ub)

theorem AddrsR.settles {env : Env} {d d' : D Ptrs} (hr : Reach env d) {v4 : List Ip4} {v6 : List Ip6}
    (n : AddrsR env d (Option.some (v4, v6)) d') {host : Bytes}
    (hh : ∃ r x, d.c.recs r = Option.some x ∧ (x.rr.type = 1 ∨ x.rr.type = 28) ∧ x.rr.name = host)
    (h4 : Gone 1 (v4.map Ip.v4) d.c) (h6 : Gone 28 (v6.map Ip.v6) d.c) : Settled d' host v4 v6 := by
  have key := n.ifa hr
  have inl : ∀ r x, d.c.recs r = Option.some x → (x.rr.type = 1 ∨ x.rr.type = 28) → x.rr.name ∈ d.c.hostsOf d.c.allPublished [] :=
    fun r x hx ht => (mem_hostsOf _ _ _).mpr (.inr ⟨r, hr.inv.rinv.mem_all hx, x, hx, ht, rfl⟩)
  obtain ⟨g4, g6⟩ := key.gone h4 h6
  refine ⟨fun m hm => ?_, fun r x hx ht h0 => ?_, fun r x hx ht h0 => ?_⟩
  · have hmem : m ∈ d.c.hostsOf d.c.allPublished [] := by
      rcases hm with rfl | ⟨r, x, hx, ht, rfl⟩
      · obtain ⟨r, x, hx, ht, rfl⟩ := hh
        exact inl r x hx ht
      · rcases key.named hx with ⟨y, hy, e1, e2⟩ | m
        · rw [← e1]
          exact inl r y hy (by rw [e2]; exact ht)
        · exact m
    obtain ⟨e4, e6⟩ := key.exact hmem (fun r x hx ho h0 => (h4 r x hx ho.1 h0).2) (fun r x hx ho h0 => (h6 r x hx ho.1 h0).2)
    refine ⟨fun ip => ?_, fun ip => ?_⟩
    · rw [has4, e4]
      simp
    · rw [has6, e6]
      simp
  · obtain ⟨a, b⟩ := g4 r x hx ht h0
    exact ⟨a, fun m => b (List.mem_map.mpr ⟨_, m, (addrOf4.mpr rfl).symm⟩)⟩
  · obtain ⟨a, b⟩ := g6 r x hx ht h0
    exact ⟨a, fun m => b (List.mem_map.mpr ⟨_, m, (addrOf6.mpr rfl).symm⟩)⟩

theorem Gone.same {type : Nat} {want : List Ip} {d d' : D Ptrs} (h : Gone type want d.c) (e : Same type d d') : Gone type want d'.c :=
  fun r x hx ht h0 => h r x ((e r x ht).mp hx) ht h0

theorem RecordR.gone {share : Bool} {host : Option Bytes} {name : Bytes} {type ttl t : Nat} {d d' : D Ptrs} {r : Nat} {want : List Ip}
    (n : RecordR share host name type ttl d r d') (ht : ttl ≠ 0) (h : Gone t want d.c) : Gone t want d'.c := by
  cases n with
  | found => exact h
  | made _ _ p _ =>
    intro s x hx h1 h0
    by_cases e : s = r
    · subst e
      obtain ⟨y, hy, hr⟩ := p.here
      rw [hx] at hy
      cases hy
      rw [hr] at h0
      exact absurd h0 ht
    · rw [p.others s e] at hx
      exact h s x hx h1 h0

theorem AddrsR.sameType {env : Env} {d d' : D Ptrs} (hr : Reach env d) {addrs : Option (List Ip4 × List Ip6)} (n : AddrsR env d addrs d') {t : Nat}
    (h1 : t ≠ 1) (h2 : t ≠ 28) : Same t d d' := by
  cases n with
  | none => exact fun _ _ _ => Iff.rfl
  | some e => exact fun s y ht => (C38_interface_partial hr e).2 s y (by rw [ht]; exact h1) (by rw [ht]; exact h2)

theorem CnameR.sameType {tgt : Bytes} {d d' : D Ptrs} {a : Option Bytes} (n : CnameR tgt d a d') {t : Nat} (h : t ≠ 5) : Same t d d' := by
  cases n with
  | none => exact fun _ _ _ => Iff.rfl
  | some n => exact n.sameType (Ne.symm h)

theorem AtMostOne.same {d d' : D Ptrs} {name : Bytes} {type : Nat} (h : AtMostOne d name type) (e : Same type d d') : AtMostOne d' name type :=
  fun r x s y hx hy h1 h2 h3 h4 => h r x s y ((e r x h2).mp hx) ((e s y h4).mp hy) h1 h2 h3 h4

theorem RecordR.atMostOne {share : Bool} {name : Bytes} {type ttl : Nat} {d d' : D Ptrs} {r : Nat}
    (n : RecordR share none name type ttl d r d') (h : AtMostOne d name type) : AtMostOne d' name type := by
  cases n with
  | found => exact h
  | made _ no p _ =>
    intro a x b y hx hy h1 h2 h3 h4
    have : ∀ c z, d'.c.recs c = some z → z.rr.name = name → z.rr.type = type → c = r := by
      intro c z hz z1 z2
      refine Decidable.byContradiction fun e => ?_
      rw [p.others c e] at hz
      exact no c z hz z1 z2
    rw [this a x hx h1 h2, this b y hy h3 h4]

theorem Puts.atMostOne {d d' : D Ptrs} {r : Nat} {x : Rec} {a : Answer} {name : Bytes} {type : Nat} (p : Puts d d' r a) (hx : d.c.recs r = some x)
    (h1 : a.name = x.rr.name) (h2 : a.type = x.rr.type) (h : AtMostOne d name type) : AtMostOne d' name type := by
  have back : ∀ c z, d'.c.recs c = some z → ∃ u, d.c.recs c = some u ∧ z.rr.name = u.rr.name ∧ z.rr.type = u.rr.type := by
    intro c z hz
    by_cases e : c = r
    · subst e
      obtain ⟨y, hy, hr⟩ := p.here
      rw [hz] at hy
      cases hy
      exact ⟨x, hx, by rw [hr]; exact h1, by rw [hr]; exact h2⟩
    · rw [p.others c e] at hz
      exact ⟨z, hz, rfl, rfl⟩
  intro b y c z hy hz a1 a2 a3 a4
  obtain ⟨u, hu, u1, u2⟩ := back b y hy
  obtain ⟨v, hv, v1, v2⟩ := back c z hz
  exact h b u c v hu hv (u1 ▸ a1) (u2 ▸ a2) (v1 ▸ a3) (v2 ▸ a4)

/-- C64: loading a service file again when the addresses of the interface have changed changes the addresses (C63) and no
other record.  Missing: as in `C64_again_partial`. -/
theorem C64_readdressed_partial {env : Env} {d : D Ptrs} (h : Reach env d) (cb : Nat) (s : SRec) (hostname : Bytes)
    (addrs : Option (List Ip4 × List Ip6))
    (hn : (instanceName (s.nameOf hostname) s.typeOf).length ≤ 255)
    (ha : ∀ a, s.cname = some a → (rooted a).length ≤ 255)
    (ad : Advertised d (s.nameOf hostname) s.typeOf (s.tgtlocal hostname) s.port s.txtData s.cname)
    (h33 : AtMostOne d (instanceName (s.nameOf hostname) s.typeOf) 33) (h16 : AtMostOne d (instanceName (s.nameOf hostname) s.typeOf) 16) :
    ∃ d', load cb s hostname addrs d = .ok ((), d') ∧ Reach env d' ∧ SameOthers d d' := by
  obtain ⟨d', hs', e, cs, _, d1, d2, d3, d4, d5, d6, d7, d8, d9, r1, r2, r3, r5, r6, r9, L⟩ := load_call h cb s hostname addrs
  refine ⟨d', e, cs.reach h, ?_⟩
  have ht : (typeName s.typeOf).length ≤ 255 := by
    simp [instanceName, typeName] at hn ⊢
    omega
  have hlo := hlocal_eq hn
  have tlo := tlocal_eq ht
  obtain ⟨x3, hx3, nm3, ty3, p4⟩ := L.srvData
  obtain ⟨x9, hx9, nm9, ty9, p10⟩ := L.txtData
  have e1 : d1 = d := L.enum.same (by rw [tlo]; exact ad.enum)
  subst e1
  have e2 : d2 = d1 := L.ptr.same (by rw [tlo, hlo]; exact ad.browse)
  subst e2
  have e3 : d3 = d2 := L.srv.same_none (by rw [hlo]; exact ad.service)
  subst e3
  have s4 : SameRecords d3 d4 := by
    obtain ⟨q, z, hz, z1, z2, _, z4, z5, z6, z7⟩ := ad.service
    have eq : q = r3 := h33 q z r3 x3 hz hx3 z1 z2 (nm3.trans hlo) ty3
    subst eq
    rw [hx3] at hz
    cases hz
    refine p4.same hx3 (srv_same z6 z7 ?_ z4)
    unfold SRec.portOf
    omega
  have o4 : SameOthers d3 d4 := s4.others
  have o7 : SameOthers d4 d7 := fun a t1 t2 r => by
    have k : Same a.type d4 d7 := (L.a.sameType (Ne.symm t1)).trans <| (L.aaaa.sameType (Ne.symm t2)).trans
      (L.addrs.sameType L.reach6 t1 t2)
    constructor
    · rintro ⟨x, hx, rfl⟩; exact ⟨x, (k r x rfl).mp hx, rfl⟩
    · rintro ⟨x, hx, rfl⟩; exact ⟨x, (k r x rfl).mpr hx, rfl⟩
  have s7 : SameOthers d3 d7 := o4.trans o7
  have e8 : d8 = d7 := by
    have hc := L.cname
    have hal := ad.alias
    generalize s.cname = o at hc hal ha
    cases hc with
    | none => rfl
    | @some a r _ n =>
      have := s7.pub (hal a rfl) (by decide) (by decide)
      rw [← fqdn_rooted (ha a rfl)] at this
      exact n.same this
  subst e8
  have e9 : d9 = d8 := L.txt.same_none (s7.pub (by rw [hlo]; exact ad.text) (by decide) (by decide))
  subst e9
  have s10 : SameRecords d9 d' := by
    obtain ⟨q, z, hz, z1, z2, _, z4⟩ := s7.pub ad.text (by decide) (by decide)
    have eq : q = r9 := by
      obtain ⟨u, hu, eu⟩ := (s7 z.rr (by rw [z2]; decide) (by rw [z2]; decide) q).mp ⟨z, hz, rfl⟩
      obtain ⟨v, hv, ev⟩ := (s7 x9.rr (by rw [ty9]; decide) (by rw [ty9]; decide) r9).mp ⟨x9, hx9, rfl⟩
      exact h16 q u r9 v hu hv (by rw [eu]; exact z1) (by rw [eu]; exact z2) (by rw [ev]; exact nm9.trans hlo)
        (by rw [ev]; exact ty9)
    subst eq
    rw [hx9] at hz
    cases hz
    exact p10.same hx9 (txt_same z4)
  exact s7.trans s10.others

/-- C64: after a service file has been loaded, loading it again leaves all records as they are, and with other addresses
all but the addresses.  The hypotheses are
those of C63 about the state before the first time, and that the instance has at most one SRV and one TXT record. -/
theorem C64_twice_partial {env : Env} {d : D Ptrs} (h : Reach env d) (cb : Nat) (s : SRec) (hostname : Bytes)
    (v4 : List Ip4) (v6 : List Ip6) (hl : Live d)
    (hn : (instanceName (s.nameOf hostname) s.typeOf).length ≤ 255)
    (ha : ∀ a, s.cname = some a → (rooted a).length ≤ 255)
    (h1 : d.has discoName 12 → Apart d discoName 12 (typeName s.typeOf))
    (h2 : d.has (typeName s.typeOf) 12 ∨ typeName s.typeOf = discoName →
      Apart d (typeName s.typeOf) 12 (instanceName (s.nameOf hostname) s.typeOf))
    (h3 : ∀ a r x, s.cname = some a → d.c.recs r = some x → x.rr.name = rooted a → x.rr.type = 5 →
      x.rr.rdname = some (s.tgtlocal hostname))
    (g4 : ∀ r x, d.c.recs r = some x → x.rr.type = 1 → x.rr.ttl = 0 → ¬ x.Probing ∧ x.rr.ip ∉ v4)
    (g6 : ∀ r x, d.c.recs r = some x → x.rr.type = 28 → x.rr.ttl = 0 → ¬ x.Probing ∧ x.rr.ip6 ∉ v6)
    (h33 : AtMostOne d (instanceName (s.nameOf hostname) s.typeOf) 33) (h16 : AtMostOne d (instanceName (s.nameOf hostname) s.typeOf) 16) :
    ∃ d1 d2, load cb s hostname (some (v4, v6)) d = .ok ((), d1) ∧ load cb s hostname (some (v4, v6)) d1 = .ok ((), d2) ∧
      SameRecords d1 d2 ∧ ∀ addrs, ∃ d3, load cb s hostname addrs d1 = .ok ((), d3) ∧ SameOthers d1 d3 := by
  obtain ⟨d', e, hr, ad⟩ := C63_advertised_partial h cb s hostname (some (v4, v6)) hl hn ha h1 h2 h3
  obtain ⟨d'', hs', e', cs, _, d1, d2, d3, d4, d5, d6, d7, d8, d9, r1, r2, r3, r5, r6, r9, L⟩ := load_call h cb s hostname (some (v4, v6))
  rw [e] at e'
  cases e'
  have hlo := hlocal_eq hn
  obtain ⟨x3, hx3, nm3, ty3, p4⟩ := L.srvData
  obtain ⟨x9, hx9, nm9, ty9, p10⟩ := L.txtData
  have k4 : ∀ t, t ≠ 33 → Same t d3 d4 := fun t ht => p4.sameType
    (fun x hx => by rw [hx3] at hx; cases hx; rw [ty3]; exact Ne.symm ht) (by show x3.rr.type ≠ t; rw [ty3]; exact Ne.symm ht)
  have k10 : ∀ t, t ≠ 16 → Same t d9 d' := fun t ht => p10.sameType
    (fun x hx => by rw [hx9] at hx; cases hx; rw [ty9]; exact Ne.symm ht) (by show x9.rr.type ≠ t; rw [ty9]; exact Ne.symm ht)
  have c4 : Gone 1 (v4.map Ip.v4) d.c := fun r x hx ht h0 => ⟨(g4 r x hx ht h0).1, fun m => by
    obtain ⟨ip, mi, e⟩ := List.mem_map.mp m
    exact (g4 r x hx ht h0).2 (addrOf4.mp e.symm ▸ mi)⟩
  have c6 : Gone 28 (v6.map Ip.v6) d.c := fun r x hx ht h0 => ⟨(g6 r x hx ht h0).1, fun m => by
    obtain ⟨ip, mi, e⟩ := List.mem_map.mp m
    exact (g6 r x hx ht h0).2 (addrOf6.mp e.symm ▸ mi)⟩
  have gone : ∀ {t : Nat} {w : List Ip}, t ≠ 33 → Gone t w d.c → Gone t w d6.c := fun ht g =>
    L.aaaa.gone (by decide) <| L.a.gone (by decide) <| (L.srv.gone (by decide) <| L.ptr.gone (by decide) <|
      L.enum.gone (by decide) g).same (k4 _ ht)
  have hs7 : Settled d7 (s.tgtlocal hostname) v4 v6 := L.addrs.settles L.reach6 (by
    obtain ⟨x, hx, a, b⟩ := L.aaaa.named
    exact ⟨_, x, hx, .inr b, a⟩) (gone (by decide) c4) (gone (by decide) c6)
  have k7 : ∀ t, t ≠ 5 → t ≠ 16 → Same t d7 d' := fun t a b =>
    (L.cname.sameType a).trans <| (L.txt.sameType (Ne.symm b)).trans (k10 t b)
  have hs' : Settled d' (s.tgtlocal hostname) v4 v6 := hs7.congr (k7 1 (by decide) (by decide)) (k7 28 (by decide) (by decide))
  have o33 : AtMostOne d' (instanceName (s.nameOf hostname) s.typeOf) 33 := by
    rw [← hlo] at h33 ⊢
    have a3 := L.srv.atMostOne ((h33.same (L.enum.sameType (by decide))).same (L.ptr.sameType (by decide)))
    have a4 := p4.atMostOne hx3 rfl rfl a3
    exact (((a4.same (L.a.sameType (by decide))).same (L.aaaa.sameType (by decide))).same
      (L.addrs.sameType L.reach6 (by decide) (by decide))).same (k7 33 (by decide) (by decide))
  have o16 : AtMostOne d' (instanceName (s.nameOf hostname) s.typeOf) 16 := by
    rw [← hlo] at h16 ⊢
    have a3 := ((h16.same (L.enum.sameType (by decide))).same (L.ptr.sameType (by decide))).same (L.srv.sameType (by decide))
    have a8 := ((((a3.same (k4 16 (by decide))).same (L.a.sameType (by decide))).same (L.aaaa.sameType (by decide))).same
      (L.addrs.sameType L.reach6 (by decide) (by decide))).same (L.cname.sameType (by decide))
    exact p10.atMostOne hx9 rfl rfl (L.txt.atMostOne a8)
  obtain ⟨d2, e2, _, sm⟩ := C64_again_partial hr cb s hostname v4 v6 hn ha hs' ad o33 o16
  refine ⟨d', d2, e, e2, sm, fun addrs => ?_⟩
  obtain ⟨d3, e3, _, so⟩ := C64_readdressed_partial hr cb s hostname addrs hn ha ad o33 o16
  exact ⟨d3, e3, so⟩

/-! ### The hypotheses can be met -/

namespace Sample

open Mdns.Sample

/-- `tv8` -/
def tv8 : Bytes := [0x74, 0x76, 0x38]

/-- `_ssh._tcp` -/
def ssh : SRec := { type := some [0x5F, 0x73, 0x73, 0x68, 0x2E, 0x5F, 0x74, 0x63, 0x70], port := 22 }

/-- A web server: `name a`, `port 65616` (too large), `cname www`, `txt path=/`, `txt x`. -/
def webA : SRec := { name := some [0x61], port := 65616, cname := some [0x77, 0x77, 0x77], txt := [[0x70, 0x61, 0x74, 0x68, 0x3D, 0x2F], [0x78]] }

def webB : SRec := { name := some [0x62], port := 81 }

/-- The state after loading. -/
def loaded (s : SRec) (hostname : Bytes) (d : D Ptrs) : D Ptrs :=
  match load 0 s hostname (some ([ipA, ipB], [])) d with
  | .ok (_, d') => d'
  | _ => d

theorem loaded_eq {d : D Ptrs} (h : Reach quiet d) (s : SRec) (hostname : Bytes) :
    load 0 s hostname (some ([ipA, ipB], [])) d = .ok ((), loaded s hostname d) ∧ Reach quiet (loaded s hostname d) := by
  obtain ⟨d', hs, e, cs, _⟩ := load_call h 0 s hostname (some ([ipA, ipB], []))
  have : loaded s hostname d = d' := by
    unfold loaded
    rw [e]
  rw [this]
  exact ⟨e, cs.reach h⟩

theorem fresh_reach : Reach quiet fresh := (hist_of (ops := []) (by decide +kernel)).reach

theorem live_of {d : D Ptrs} (h : Reach quiet d) (hb : allB d (fun x => x.rr.ttl != 0) = true) : Live d := by
  intro r x hx h0
  have := all_of h hb hx
  simp [h0] at this

theorem apart_of {d : D Ptrs} {name host : Bytes} {type : Nat} (h : Reach quiet d)
    (hb : allB d (fun x => bucket x.rr.name sprime != bucket name sprime || !(decide (x.rr.rdname = none ∨ x.rr.rdname = some host)) ||
      decide (x.rr.name = name ∧ x.rr.type = type ∧ x.rr.rdname = some host)) = true) : Apart d name type host := by
  intro r x hx h1 h2
  have := all_of h hb hx
  have e : (bucket x.rr.name sprime != bucket name sprime) = false := by rw [h1]; simp
  rw [e, decide_eq_true h2] at this
  exact of_decide_eq_true (by simpa using this)

theorem none_of {d : D Ptrs} {name : Bytes} {type : Nat} (h : Reach quiet d)
    (hb : allB d (fun x => !decide (x.rr.name = name ∧ x.rr.type = type)) = true) : ∀ r x, d.c.recs r = some x → x.rr.name = name → x.rr.type ≠ type := by
  intro r x hx h1 h2
  have := all_of h hb hx
  simp [h1, h2] at this

/-- `nas` -/
def nas : Bytes := [0x6E, 0x61, 0x73]

/-- A host with two services. -/
def two : D Ptrs := loaded webB nas (loaded ssh nas fresh)

theorem two_reach : Reach quiet two := (loaded_eq (loaded_eq fresh_reach ssh nas).2 webB nas).2

/-- C63, C64: a second web server is loaded on the host, and loaded again, with the same
addresses and with another. -/
example : ∃ d1 d2, load 0 webA nas (some ([ipA, ipB], [])) two = .ok ((), d1) ∧
    Advertised d1 [0x61] httpTcp (nas ++ dotLocal) 65616 [6, 0x70, 0x61, 0x74, 0x68, 0x3D, 0x2F] (some [0x77, 0x77, 0x77]) ∧
    load 0 webA nas (some ([ipA, ipB], [])) d1 = .ok ((), d2) ∧ SameRecords d1 d2 ∧
    (∀ ip, HasV4 d1 (nas ++ dotLocal) ip ↔ ip ∈ [ipA, ipB]) ∧
    ∃ d3, load 0 webA nas (some ([ipC], [])) d1 = .ok ((), d3) ∧ SameOthers d1 d3 := by
  have r0 := two_reach
  have hl : Live two := live_of r0 (by decide +kernel)
  have lv : allB two (fun x => x.rr.ttl != 0) = true := by decide +kernel
  have a1 : Apart two discoName 12 (typeName webA.typeOf) := apart_of r0 (by decide +kernel)
  have a2 : Apart two (typeName webA.typeOf) 12 (instanceName (webA.nameOf nas) webA.typeOf) := apart_of r0 (by decide +kernel)
  have n5 := none_of (name := rooted [0x77, 0x77, 0x77]) (type := 5) r0 (by decide +kernel)
  have n33 := none_of (name := instanceName (webA.nameOf nas) webA.typeOf) (type := 33) r0 (by decide +kernel)
  have n16 := none_of (name := instanceName (webA.nameOf nas) webA.typeOf) (type := 16) r0 (by decide +kernel)
  have hn : (instanceName (webA.nameOf nas) webA.typeOf).length ≤ 255 := by decide
  have ha : ∀ a, webA.cname = some a → (rooted a).length ≤ 255 := fun a e => by cases e; decide
  have h3 : ∀ a r x, webA.cname = some a → two.c.recs r = some x → x.rr.name = rooted a → x.rr.type = 5 →
      x.rr.rdname = some (webA.tgtlocal nas) := fun a r x e hx e1 e2 => by cases e; exact absurd e2 (n5 r x hx e1)
  obtain ⟨d1, e1, _, ad⟩ := C63_advertised_partial r0 0 webA nas (some ([ipA, ipB], [])) hl hn ha (fun _ => a1) (fun _ => a2) h3
  obtain ⟨d1', d2, e1', e2, sm, so⟩ := C64_twice_partial r0 0 webA nas [ipA, ipB] [] hl hn ha (fun _ => a1) (fun _ => a2) h3
    (fun r x hx _ h0 => absurd (all_of r0 lv hx) (by simp [h0])) (fun r x hx _ h0 => absurd (all_of r0 lv hx) (by simp [h0]))
    (fun r x s y hx _ q1 q2 => absurd q2 (n33 r x hx q1)) (fun r x s y hx _ q1 q2 => absurd q2 (n16 r x hx q1))
  rw [e1] at e1'
  cases e1'
  obtain ⟨d1', e1', hv, _⟩ := C63_addresses_partial r0 0 webA nas [ipA, ipB] []
    (fun r x hx _ _ h0 => absurd (all_of r0 lv hx) (by simp [h0])) (fun r x hx _ _ h0 => absurd (all_of r0 lv hx) (by simp [h0]))
  rw [e1] at e1'
  cases e1'
  exact ⟨d1, d2, e1, ad, e2, sm, hv, so _⟩

/-- C63, TXT lines: `a=1`, `b`, `a=2`, `c=` in a file. -/
example : ∃ s, parse ([0x74, 0x78, 0x74, 0x20, 0x61, 0x3D, 0x31, 0x0A, 0x74, 0x78, 0x74, 0x20, 0x62, 0x0A] ++
      [0x74, 0x78, 0x74, 0x20, 0x61, 0x3D, 0x32, 0x0A, 0x74, 0x78, 0x74, 0x20, 0x63, 0x3D, 0x0A]) = .ok s ∧
    s.txt = [[0x61, 0x3D, 0x31], [0x62], [0x61, 0x3D, 0x32], [0x63, 0x3D]] ∧ (∀ l ∈ s.txt, l.head? ≠ some 0x3D) ∧
    s.txtData = [1, 0x63, 3, 0x61, 0x3D, 0x32] :=
  ⟨{ txt := [[0x61, 0x3D, 0x31], [0x62], [0x61, 0x3D, 0x32], [0x63, 0x3D]] }, by decide +kernel, rfl, by decide +kernel, by decide +kernel⟩

end Sample

/-! ### Counterexamples -/

open Sample Mdns.Sample

/-- C63: the name of the host falls into the hash chain of `_http._tcp.local.`.  After three service files have been loaded,
the second web server cannot be found: `record` takes the address record for the one it is looking for
(`src/conf.c:163`), as that has no name as data. -/
theorem C63_collision_counterexample : ∃ d d', Reach quiet d ∧ load 0 webB tv8 (some ([ipA, ipB], [])) d = .ok ((), d') ∧ Live d ∧
    ¬ Pub d' (typeName httpTcp) 12 (fun a => a.rdname = some (instanceName [0x62] httpTcp)) := by
  have r0 := (loaded_eq (loaded_eq fresh_reach ssh tv8).2 webA tv8).2
  obtain ⟨e, r1⟩ := loaded_eq r0 webB tv8
  refine ⟨_, _, r0, e, live_of r0 (by decide +kernel), ?_⟩
  rintro ⟨r, x, hx, _, _, _, hd⟩
  have := all_of r1 (p := fun x => !decide (x.rr.rdname = some (instanceName [0x62] httpTcp))) (by decide +kernel) hx
  simp [hd] at this

/-- C63: the line `txt =`, with an empty key and no value, is encoded as an empty string, which ends the decoding: the
line `txt a=1` is lost. -/
theorem C63_empty_key_counterexample : ∃ s, parse [0x74, 0x78, 0x74, 0x20, 0x3D, 0x0A, 0x74, 0x78, 0x74, 0x20, 0x61, 0x3D, 0x31, 0x0A] = .ok s ∧
    s.txt = [[0x3D], [0x61, 0x3D, 0x31]] ∧ ∃ r, SdTxt.txt2sd s.txtData s.txtData.length = .ok r ∧ SdTxt.getOpt r [0x61] = none := by
  refine ⟨{ txt := [[0x3D], [0x61, 0x3D, 0x31]] }, by decide +kernel, rfl, ?_⟩
  have h0 : ({ txt := [[0x3D], [0x61, 0x3D, 0x31]] } : SRec).txtData = [0, 3, 0x61, 0x3D, 0x31] := by decide +kernel
  rw [h0]
  exact ⟨none, rfl, rfl⟩

end Mdns.Conf
