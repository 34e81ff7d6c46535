import Verif.Model.Reload
import Verif.Props.Service
import Verif.Props.Lookups
import Verif.Props.Leaving
import Verif.Props.Bounded

/-!
# C77: reading the configuration again
-/

namespace Mdns.Conf

open Mdns

/-! ### Specification -/

/-- What fits in a buffer of 256. -/
def cut (b : Bytes) : Bytes := b.take 255

/-- The services of the files. -/
def services (fs : List (Option Bytes)) : List SRec :=
  fs.filterMap fun f => f.bind fun b => match parse b with
    | .ok s => some s
    | .oob => none

def Source.services : Source → List SRec
  | .missing => []
  | .files fs => Conf.services fs

/-- All files can be read (see C51). -/
def Source.Readable : Source → Prop
  | .missing => True
  | .files fs => ∀ f, some f ∈ fs → ∃ s, parse f = .ok s

/-- The host of a service. -/
def hostOf (host : Bytes) (s : SRec) : Bytes :=
  cut (match s.target with
    | some t => rooted t
    | none => host ++ dotLocal)

/-- A service file asks for a record of this name and type. -/
inductive Asks (host : Bytes) (s : SRec) : Bytes → Nat → Prop
  | enum : Asks host s discoName 12
  | browse : Asks host s (cut (typeName s.typeOf)) 12
  | service : Asks host s (cut (instanceName (s.nameOf host) s.typeOf)) 33
  | text : Asks host s (cut (instanceName (s.nameOf host) s.typeOf)) 16
  | v4 : Asks host s (hostOf host s) 1
  | v6 : Asks host s (hostOf host s) 28
  | alias {a : Bytes} (h : s.cname = some a) : Asks host s (cut (rooted a)) 5

/-- One of them does. -/
def Wanted (host : Bytes) (ss : List SRec) (name : Bytes) (type : Nat) : Prop := ∃ s ∈ ss, Asks host s name type

/-- No name falls into the hash chain of the names of PTR records, except these. -/
def NoClash (host : Bytes) (ss : List SRec) : Prop :=
  ∀ n t, Wanted host ss n t → (bucket n sprime = bucket discoName sprime → n = discoName ∧ t = 12) ∧
    ∀ s ∈ ss, bucket n sprime = bucket (typeName s.typeOf) sprime → n = typeName s.typeOf ∧ t = 12

/-! ### What loading leaves -/

theorem tlocal_cut (s : SRec) : s.tlocal = cut (typeName s.typeOf) := rfl

theorem hlocal_cut (host : Bytes) (s : SRec) : s.hlocal host = cut (instanceName (s.nameOf host) s.typeOf) := by
  unfold SRec.hlocal cut instanceName CLib.snprintf
  simp

theorem fqdn_cut (t : Bytes) : fqdn 256 t = cut (rooted t) := by
  unfold fqdn rooted cut CLib.snprintf
  split <;> simp

theorem tgtlocal_cut (host : Bytes) (s : SRec) : s.tgtlocal host = hostOf host s := by
  unfold SRec.tgtlocal hostOf
  cases s.target with
  | some t => exact fqdn_cut _
  | none => rfl

/-- The data of a record the files ask for. -/
structure Of (host : Bytes) (ss : List SRec) (a : Answer) : Prop where
  wanted : Wanted host ss a.name a.type
  ptr : a.type = 12 → a.rdname ≠ none
  alias : a.type = 5 → ∃ s ∈ ss, ∃ t, s.cname = some t ∧ a.name = cut (rooted t) ∧ a.rdname = some (hostOf host s)

def AllOf (host : Bytes) (ss : List SRec) (d : D Ptrs) : Prop := ∀ r x, d.c.recs r = some x → Of host ss x.rr

theorem Puts.allOf {host : Bytes} {ss : List SRec} {d d' : D Ptrs} {r : Nat} {a : Answer} (p : Puts d d' r a) (ha : Of host ss a)
    (h : AllOf host ss d) : AllOf host ss d' := by
  intro s x hx
  by_cases e : s = r
  · subst e
    obtain ⟨y, hy, e⟩ := p.here
    rw [hy] at hx
    cases hx
    rw [e]
    exact ha
  · rw [p.others s e] at hx
    exact h s x hx

theorem RecordR.allOf {host : Bytes} {ss : List SRec} {d d' : D Ptrs} {share : Bool} {o : Option Bytes} {name : Bytes} {type ttl r : Nat}
    (n : RecordR share o name type ttl d r d') (ha : Of host ss { name := name, type := type, ttl := ttl, rdname := o })
    (h : AllOf host ss d) : AllOf host ss d' := by
  cases n with
  | found => exact h
  | made _ _ p _ => exact p.allOf ha h

theorem Wanted.addr {host : Bytes} {ss : List SRec} {n : Bytes} {t : Nat} (h : Wanted host ss n t) (ht : t = 1 ∨ t = 28) :
    Wanted host ss n 1 ∧ Wanted host ss n 28 := by
  obtain ⟨s, m, h⟩ := h
  cases h <;> simp at ht
  · exact ⟨⟨s, m, .v4⟩, s, m, .v6⟩
  · exact ⟨⟨s, m, .v4⟩, s, m, .v6⟩

theorem AddrsR.allOf {env : Env} {host : Bytes} {ss : List SRec} {d d' : D Ptrs} (hr : Reach env d) {addrs : Option (List Ip4 × List Ip6)}
    (n : AddrsR env d addrs d') (h : AllOf host ss d) : AllOf host ss d' := by
  cases addrs with
  | none =>
    cases n
    exact h
  | some p =>
    obtain ⟨v4, v6⟩ := p
    intro r x hx
    by_cases ht : x.rr.type = 1 ∨ x.rr.type = 28
    · have hw : Wanted host ss x.rr.name 1 ∧ Wanted host ss x.rr.name 28 := by
        rcases (n.ifa hr).named hx with ⟨y, hy, e1, e2⟩ | m
        · rw [← e1]
          exact (h r y hy).wanted.addr (by rw [e2]; exact ht)
        · rcases (mem_hostsOf _ _ _).mp m with m | ⟨q, _, y, hy, hty, hn⟩
          · cases m
          · rw [← hn]
            exact (h q y hy).wanted.addr hty
      refine ⟨?_, fun e => ?_, fun e => ?_⟩
      · rcases ht with e | e
        · rw [e]; exact hw.1
        · rw [e]; exact hw.2
      · omega
      · omega
    · exact h r x ((n.sameType hr (fun e => ht (.inl e)) (fun e => ht (.inr e)) r x rfl).mp hx)

theorem LoadR.allOf {env : Env} {host : Bytes} {ss : List SRec} {s : SRec} {addrs : Option (List Ip4 × List Ip6)}
    {d d' d1 d2 d3 d4 d5 d6 d7 d8 d9 : D Ptrs} {r1 r2 r3 r5 r6 r9 : Nat}
    (L : LoadR env s host addrs d d' d1 d2 d3 d4 d5 d6 d7 d8 d9 r1 r2 r3 r5 r6 r9) (hs : s ∈ ss) (h : AllOf host ss d) :
    AllOf host ss d' := by
  obtain ⟨x3, hx3, nm3, ty3, p4⟩ := L.srvData
  obtain ⟨x9, hx9, nm9, ty9, p10⟩ := L.txtData
  have h1 := L.enum.allOf ⟨⟨s, hs, .enum⟩, by simp, by simp⟩ h
  have h2 := L.ptr.allOf ⟨⟨s, hs, tlocal_cut s ▸ .browse⟩, by simp, by simp⟩ h1
  have h3 := L.srv.allOf ⟨⟨s, hs, hlocal_cut host s ▸ .service⟩, by simp, by simp⟩ h2
  have h4 := p4.allOf ⟨(h3 _ _ hx3).wanted, by simp [ty3], by simp [ty3]⟩ h3
  have h5 := L.a.allOf ⟨⟨s, hs, tgtlocal_cut host s ▸ .v4⟩, by simp, by simp⟩ h4
  have h6 := L.aaaa.allOf ⟨⟨s, hs, tgtlocal_cut host s ▸ .v6⟩, by simp, by simp⟩ h5
  have h7 := L.addrs.allOf L.reach6 h6
  have h8 : AllOf host ss d8 := by
    have hc := L.cname
    generalize hca : s.cname = ca at hc
    cases hc with
    | none => exact h7
    | some n =>
      refine n.allOf ⟨⟨s, hs, fqdn_cut _ ▸ .alias hca⟩, by simp, fun _ => ⟨s, hs, _, hca, fqdn_cut _, ?_⟩⟩ h7
      rw [tgtlocal_cut]
  have h9 := L.txt.allOf ⟨⟨s, hs, hlocal_cut host s ▸ .text⟩, by simp, by simp⟩ h8
  exact p10.allOf ⟨(h9 _ _ hx9).wanted, by simp [ty9], by simp [ty9]⟩ h9

theorem LoadR.live {env : Env} {host : Bytes} {s : SRec} {addrs : Option (List Ip4 × List Ip6)}
    {d d' d1 d2 d3 d4 d5 d6 d7 d8 d9 : D Ptrs} {r1 r2 r3 r5 r6 r9 : Nat}
    (L : LoadR env s host addrs d d' d1 d2 d3 d4 d5 d6 d7 d8 d9 r1 r2 r3 r5 r6 r9) (hl : Live d) : Live d' := by
  obtain ⟨x3, hx3, nm3, ty3, p4⟩ := L.srvData
  obtain ⟨x9, hx9, nm9, ty9, p10⟩ := L.txtData
  have l1 := L.enum.live (by decide) hl
  have l2 := L.ptr.live (by decide) l1
  have l3 := L.srv.live (by decide) l2
  have l4 := p4.live hx3 rfl rfl l3
  have l5 := L.a.live (by decide) l4
  have l6 := L.aaaa.live (by decide) l5
  have l7 := L.addrs.live L.reach6 l6
  have l8 := L.cname.live l7
  have l9 := L.txt.live (by decide) l8
  exact p10.live hx9 rfl rfl l9

theorem services_cons (f : Option Bytes) (fs : List (Option Bytes)) : services (f :: fs) = services [f] ++ services fs := by
  unfold services
  rw [← List.filterMap_append]
  rfl

/-- Loading files, from a state with records the files ask for. -/
theorem files_allOf {env : Env} (cb : Nat) (host : Bytes) (addrs : Nat → Option (List Ip4 × List Ip6)) (ss : List SRec) :
    ∀ (fs : List (Option Bytes)) (i : Nat) {d : D Ptrs}, Reach env d → (∀ f, some f ∈ fs → ∃ s, parse f = .ok s) →
      (∀ s ∈ services fs, s ∈ ss) → AllOf host ss d →
      ∃ v d' hs, loadFiles cb host addrs fs i d = .ok (v, d') ∧ Calls env d hs d' ∧ (∀ k ∈ hs, k.1.ofLoad = true) ∧ AllOf host ss d'
  | [], _, d, _, _, _, a => ⟨0, d, [], rfl, .nil, by simp, a⟩
  | f :: fs, i, d, h, hp, hs, a => by
    have one : ∃ v d' hs, loadFile cb f host (addrs i) d = .ok (v, d') ∧ Calls env d hs d' ∧ (∀ k ∈ hs, k.1.ofLoad = true) ∧
        AllOf host ss d' := by
      cases f with
      | none => exact ⟨1, d, [], rfl, .nil, by simp, a⟩
      | some b =>
        obtain ⟨s, e⟩ := hp b (by simp)
        obtain ⟨d', hs', e', cs, o, _, _, _, _, _, _, _, _, _, _, _, _, _, _, _, L⟩ := load_call h cb s host (addrs i)
        refine ⟨0, d', hs', ?_, cs, o, L.allOf (hs s ?_) a⟩
        · unfold loadFile
          simp only [e]
          rw [M.bind_ok e']
          rfl
        · rw [services_cons]
          exact List.mem_append_left _ (by simp [services, e])
    obtain ⟨v, d1, hs1, e1, c1, o1, a1⟩ := one
    obtain ⟨w, d2, hs2, e2, c2, o2, a2⟩ := files_allOf cb host addrs ss fs (i + 1) (c1.reach h) (fun g m => hp g (by simp [m]))
      (fun s m => hs s (by rw [services_cons]; exact List.mem_append_right _ m)) a1
    refine ⟨v ||| w, d2, hs1 ++ hs2, ?_, c1.append c2, ?_, a2⟩
    · unfold loadFiles
      rw [M.bind_ok e1, M.bind_ok e2]
      rfl
    · intro k m
      rcases List.mem_append.mp m with m | m
      · exact o1 k m
      · exact o2 k m

theorem services_one {b : Bytes} {s : SRec} (e : parse b = .ok s) : services [some b] = [s] := by
  simp [services, e]

/-- What is loaded stays advertised. -/
theorem files_advertised {env : Env} (cb : Nat) (host : Bytes) (addrs : Nat → Option (List Ip4 × List Ip6)) (ss : List SRec)
    (fit : ∀ s ∈ ss, (instanceName (s.nameOf host) s.typeOf).length ≤ 255 ∧ ∀ a, s.cname = some a → (rooted a).length ≤ 255)
    (clash : NoClash host ss)
    (alias : ∀ s ∈ ss, ∀ s' ∈ ss, ∀ a a', s.cname = some a → s'.cname = some a' → rooted a = rooted a' → hostOf host s = hostOf host s') :
    ∀ (fs : List (Option Bytes)) (i : Nat) (pre : List SRec) {d : D Ptrs}, Reach env d → (∀ f, some f ∈ fs → ∃ s, parse f = .ok s) →
      ss = pre ++ services fs → (ss.map fun s => instanceName (s.nameOf host) s.typeOf).Nodup → AllOf host ss d → Live d →
      (∀ s ∈ pre, Advertised d (s.nameOf host) s.typeOf (hostOf host s) s.port s.txtData s.cname) →
      ∃ v d', loadFiles cb host addrs fs i d = .ok (v, d') ∧
        ∀ s ∈ ss, Advertised d' (s.nameOf host) s.typeOf (hostOf host s) s.port s.txtData s.cname
  | [], _, pre, d, _, _, hs, _, _, _, ad => ⟨0, d, rfl, fun s m => ad s (by rw [hs] at m; simpa [services] using m)⟩
  | none :: fs, i, pre, d, h, hp, hs, nd, a, l, ad => by
    obtain ⟨w, d2, e2, a2⟩ := files_advertised cb host addrs ss fit clash alias fs (i + 1) pre h (fun g m => hp g (by simp [m])) hs nd a l ad
    refine ⟨1 ||| w, d2, ?_, a2⟩
    unfold loadFiles
    have e1 : loadFile cb none host (addrs i) d = .ok (1, d) := rfl
    rw [M.bind_ok e1, M.bind_ok e2]
    rfl
  | some b :: fs, i, pre, d, h, hp, hs, nd, a, l, ad => by
    obtain ⟨s, e⟩ := hp b (by simp)
    have hs' : ss = (pre ++ [s]) ++ services fs := by
      rw [hs, services_cons, services_one e, List.append_assoc]
    have ms : s ∈ ss := by rw [hs']; simp
    obtain ⟨fi, fa⟩ := fit s ms
    have ht : (typeName s.typeOf).length ≤ 255 := by
      simp [instanceName, typeName] at fi ⊢
      omega
    obtain ⟨d', hs', e', cs, o, _, _, _, _, _, _, _, _, _, _, _, _, _, _, _, L⟩ := load_call h cb s host (addrs i)
    obtain ⟨d1, e1, _, ads⟩ := C63_advertised_partial h cb s host (addrs i) l fi fa
      (fun _ r x hx hb hd => by
        obtain ⟨h1, h2⟩ := (clash _ _ (a r x hx).wanted).1 hb
        exact ⟨h1, h2, hd.resolve_left ((a r x hx).ptr h2)⟩)
      (fun _ r x hx hb hd => by
        obtain ⟨h1, h2⟩ := (clash _ _ (a r x hx).wanted).2 s ms hb
        exact ⟨h1, h2, hd.resolve_left ((a r x hx).ptr h2)⟩)
      (fun al r x hc hx hn ht => by
        obtain ⟨s', m', t, h1, h2, h3⟩ := (a r x hx).alias ht
        have ft := (fit s' m').2 t h1
        rw [h3, tgtlocal_cut, alias s ms s' m' al t hc h1]
        rw [← hn, h2]
        exact (List.take_of_length_le (by omega)))
    rw [e'] at e1
    cases e1
    rw [tgtlocal_cut] at ads
    have ad1 : ∀ s' ∈ pre ++ [s], Advertised d' (s'.nameOf host) s'.typeOf (hostOf host s') s'.port s'.txtData s'.cname := by
      intro s' m'
      rcases List.mem_append.mp m' with m' | m'
      · obtain ⟨d2, e2, ad2⟩ := C63_keeps_others h cb s host (addrs i) (ad s' m') (by
          rw [hlocal_eq fi]
          intro eq
          rw [hs, services_cons, services_one e, List.map_append, List.nodup_append] at nd
          exact nd.2.2 _ (List.mem_map.mpr ⟨s', m', rfl⟩) _ (by simp) eq.symm)
        rw [e'] at e2
        cases e2
        exact ad2
      · rw [List.mem_singleton.mp m']
        exact ads
    obtain ⟨w, d2, e2, a2⟩ := files_advertised cb host addrs ss fit clash alias fs (i + 1) (pre ++ [s]) (cs.reach h)
      (fun g m => hp g (by simp [m])) (by rw [hs, services_cons, services_one e, List.append_assoc]) nd (L.allOf ms a) (L.live l) ad1
    refine ⟨0 ||| w, d2, ?_, a2⟩
    unfold loadFiles
    have e1 : loadFile cb (some b) host (addrs i) d = .ok (0, d') := by
      unfold loadFile
      simp only [e]
      rw [M.bind_ok e']
      rfl
    rw [M.bind_ok e1, M.bind_ok e2]
    rfl

/-! ### C77 -/

theorem clear_call {env : Env} {d : D Ptrs} (h : Reach env d) : ∃ d', (recordsClear : M Ptrs Unit) d = .ok ((), d') ∧
    Calls env d [(.clear, .unit)] d' ∧ (∀ r, d'.c.recs r = none) ∧ d.lists.size ≤ d'.lists.size := by
  obtain ⟨_, d', e, cs, hd⟩ := h.call (o := .clear) (x := recordsClear) (f := fun _ => .unit) trivial rfl
  exact ⟨d', e, cs, (C45_clear h cs.single.2).1, (hd.run h.inv h.uni).size⟩

/-- Calls a reload is made of. -/
def _root_.Mdns.Op.ofReload (o : Op) : Bool := o.ofLoad || o matches .clear

/-- C77: in every state, reading the configuration again ends normally, as a sequence of calls of the library.  Then there are
only such records as the files ask for; those that were there before are in no packet any more, whatever
happens.  Missing: files with an empty line (`C51_empty_line_counterexample`). -/
theorem C77_reload_partial {env : Env} {d : D Ptrs} (h : Reach env d) (cb : Nat) (base : Bytes) (hostid : Nat)
    (addrs : Nat → Option (List Ip4 × List Ip6)) (p : Source) (hp : p.Readable) :
    ∃ d' hs, reload cb base hostid addrs p d = .ok ((), d') ∧ Calls env d hs d' ∧ (∀ k ∈ hs, k.1.ofReload = true) ∧
      (∀ r x, d'.c.recs r = some x → Wanted (hostname base hostid) p.services x.rr.name x.rr.type) ∧
      ∀ r x, d.c.recs r = some x → d'.c.recs r = none ∧ ∀ h' d'', Calls env d' h' d'' → ∀ k ∈ h', ∀ s, (s, r) ∉ k.2.tags := by
  obtain ⟨d1, e1, c1, n1, z1⟩ := clear_call h
  have r1 := c1.reach h
  have key : ∃ v d' hs, confInit cb base hostid addrs p d1 = .ok (v, d') ∧ Calls env d1 hs d' ∧ (∀ k ∈ hs, k.1.ofLoad = true) ∧
      AllOf (hostname base hostid) p.services d' := by
    have a1 : AllOf (hostname base hostid) p.services d1 := fun r x hx => by rw [n1 r] at hx; cases hx
    cases p with
    | missing => exact ⟨1, d1, [], rfl, .nil, by simp, a1⟩
    | files fs => exact files_allOf cb (hostname base hostid) addrs (services fs) fs 0 r1 hp (fun _ m => m) a1
  obtain ⟨v, d', hs, e, cs, o, a⟩ := key
  refine ⟨d', _, ?_, c1.append cs, ?_, fun r x hx => (a r x hx).wanted, fun r x hx => ?_⟩
  · unfold reload
    rw [M.bind_ok e1, M.bind_ok e]
    rfl
  · intro k m
    rcases List.mem_append.mp m with m | m
    · rw [List.mem_singleton.mp m]
      rfl
    · simp [Op.ofReload, o k m]
  · have hsz : r < d1.lists.size := Nat.lt_of_lt_of_le (h.inv.rinv.bound r (by rw [hx]; rfl)) z1
    have hg : view d1.c d1.lists r = ⟨none, none⟩ := view_none r1.inv.rinv (n1 r)
    obtain ⟨hv, hz⟩ : view d'.c d'.lists r = ⟨none, none⟩ ∧ r < d'.lists.size := by
      refine cs.induct (P := fun _ c l => view c l r = ⟨none, none⟩ ∧ r < l.size) r1 ⟨hg, hsz⟩ ?_
      rintro h1 c l o a c' l' _ ⟨p2, p3⟩ hi hu hso hdid hi'
      have hrun := hdid.run hi hu
      obtain ⟨ls, hs, ht, hm⟩ := hrun.steps r
      have hn : Lab.new ∉ ls := fun m => by
        have := (Op.may_new (hm _ m)).1
        omega
      exact ⟨(hs.none p2 hn).2, Nat.lt_of_lt_of_le p3 hrun.size⟩
    exact ⟨congrArg View.x hv, fun h' d'' n'' => n''.silent (cs.reach r1) hz hv⟩

theorem step_unproven {u v : View} {ls : List Lab} (h : RStep u ls v) (hl : ∀ a ∈ ls, a ≠ .verify ∧ ∀ s w, a ≠ .put s w)
    (hu : ∀ x, u.x = some x → x.unique ≠ 0 → x.unique = 1) : ∀ x, v.x = some x → x.unique ≠ 0 → x.unique = 1 := by
  cases h with
  | touch h _ => rintro _ ⟨⟩; rw [h.unique]; exact hu _ rfl
  | skip _ => rintro _ ⟨⟩; exact hu _ rfl
  | shared h _ => rintro _ ⟨⟩ h'; exact absurd h h'
  | unique h _ => rintro _ ⟨⟩ _; exact h
  | edit _ h _ => rintro _ ⟨⟩; rw [h.unique]; exact hu _ rfl
  | publish _ h _ => rintro _ ⟨⟩; rw [h.unique]; exact hu _ rfl
  | queue _ _ _ => rintro _ ⟨⟩; exact hu _ rfl
  | @bye x _ _ => rintro _ ⟨⟩; exact hu x rfl
  | drop => rintro _ ⟨⟩
  | sent => simp at hl
  | sentBye => simp at hl
  | announce => simp at hl
  | announceLast => simp at hl
  | verify => simp at hl
  | propose => simp at hl
  | unicast => simp at hl
  | extra => simp at hl

theorem steps_unproven {u v : View} {ls : List Lab} (h : RSteps u ls v) (hl : ∀ a ∈ ls, a ≠ .verify ∧ ∀ s w, a ≠ .put s w)
    (hu : ∀ x, u.x = some x → x.unique ≠ 0 → x.unique = 1) : ∀ x, v.x = some x → x.unique ≠ 0 → x.unique = 1 := by
  induction h with
  | refl => exact hu
  | step h _ ih => exact ih (fun a m => hl a (by simp [m])) (step_unproven h (fun a m => hl a (by simp [m])) hu)

/-- C77: after reading the configuration again no unique record counts as unique yet: each is probed again, from the
beginning, before it is announced (C29), even if it was announced before. -/
theorem C77_probed_again {env : Env} {d d' : D Ptrs} (h : Reach env d) {cb : Nat} {base : Bytes} {hostid : Nat}
    {addrs : Nat → Option (List Ip4 × List Ip6)} {p : Source} (hp : p.Readable)
    (e : reload cb base hostid addrs p d = .ok ((), d')) :
    ∀ r x, d'.c.recs r = some x → x.unique ≠ 0 → x.unique = 1 ∧ r ∈ d'.q.walk .probing := by
  obtain ⟨d1, e1, c1, n1, z1⟩ := clear_call h
  have r1 := c1.reach h
  have key : ∃ hs, Calls env d1 hs d' ∧ ∀ k ∈ hs, k.1.ofLoad = true := by
    unfold reload at e
    rw [M.bind_ok e1] at e
    cases p with
    | missing => cases e; exact ⟨[], .nil, by simp⟩
    | files fs =>
      obtain ⟨v, d2, hs, e2, cs, o, _⟩ := C63_files_partial cb (hostname base hostid) addrs fs 0 r1 hp
      have e3 : confInit cb base hostid addrs (.files fs) d1 = .ok (v, d2) := e2
      rw [M.bind_ok e3] at e
      cases e
      exact ⟨hs, cs, o⟩
  obtain ⟨hs, cs, o⟩ := key
  have hu : ∀ r x, d'.c.recs r = some x → x.unique ≠ 0 → x.unique = 1 := by
    refine cs.induct (P := fun _ c _ => ∀ r x, c.recs r = some x → x.unique ≠ 0 → x.unique = 1) r1
      (fun r x hx => by rw [n1 r] at hx; cases hx) ?_
    rintro h1 c l o1 a c' l' ⟨h2, eh⟩ ih hi hu hso hdid hi' r
    have ho : o1.ofLoad = true := o (o1, a) (by rw [eh]; simp)
    obtain ⟨ls, n, ht, hm⟩ := (hdid.run hi hu).steps r
    refine steps_unproven n (fun b m => ?_) (ih r)
    have := hm b m
    cases o1 <;> simp [Op.ofLoad] at ho <;> simp only [Op.may, addrLab] at this <;>
      (constructor <;> intros <;> rintro rfl <;> simp at this)
  have hd := cs.reach r1
  exact fun r x hx h0 => ⟨hu r x hx h0, (hd.inv.rinv.probing r x hx).mpr ⟨h0, by rw [hu r x hx h0]; decide⟩⟩

/-- The entries of a response are those of records. -/
theorem response_entries {env : Env} {c : Core} {l : Lists} {ret : Nat} {m : Out} {to : Addr} {c' : Core} {l' : Lists}
    (n : OutMsg env c l ret m to c' l') (hq : m.qr = true) : ∃ b, Made c b m := by
  cases n with
  | @unicast u us x _ seen hu hx na =>
    refine ⟨false, na.made (c0 := c) ((Kept.refl c).set hx rfl rfl rfl Iff.rfl) ?_⟩
    exact Made.put (c := c) (Made.qd (.start ..) _ _ _) (Kept.refl c) hx (by simp)
  | @shutdown s1 s2 hu n1 n2 _ => exact ⟨true, (n2.made (n1.made ⟨Kept.refl c, .start ..⟩)).made⟩
  | @normal s1 s2 _ _ _ _ hu n1 n2 _ n3 =>
    have hm := n2.made (n1.made (c0 := c) ⟨Kept.refl c, .start ..⟩)
    cases n3 with
    | @answers s3 _ _ np na hr =>
      have hm := np.made hm
      exact ⟨true, na.made hm.kept hm.made⟩
    | probes np na hr nb => rw [nb.qr] at hq; cases hq
    | questions np na hr nb _ nq => rw [nq.qr, nb.qr] at hq; cases hq

/-- Records sent are records there. -/
theorem said_named {env : Env} {d d' : D Ptrs} {h : List Call} (n : Calls env d h d') (hr : Reach env d)
    (hs : ∀ k ∈ h, k.1.ofStep = true) {m : Out} {to : Addr} (hm : (m, to) ∈ packetsOf h) (hq : m.qr = true) :
    ∀ e ∈ entries m.ops, ∃ r x, d.c.recs r = some x ∧ x.rr.name = e.name ∧ x.rr.type = e.type := by
  obtain ⟨⟨o, a⟩, mk, hk⟩ := List.mem_filterMap.mp hm
  obtain ⟨pre, post, rfl⟩ := List.append_of_mem mk
  obtain ⟨d1, d2, n1, hso, e, _⟩ := Calls.at (o := o) (a := a) n
  have r1 := n1.reach hr
  have nm : Bounded.Named d.c d1.c := by
    refine n1.induct (P := fun _ c _ => Bounded.Named d.c c) hr (.refl _) ?_
    rintro h1 c l o1 a1 c' l' ⟨h2, eh⟩ ih hi hu _ hdid _
    have ho : o1.ofStep = true := hs (o1, a1) (by rw [eh]; simp)
    refine ih.trans (Bounded.run_named (hdid.run hi hu) fun r hn => ?_)
    cases o1 <;> simp [Op.ofStep] at ho <;> simp [Op.may, recvLab, sendLab] at hn
  have hd := r1.did hso e
  intro en hen
  cases a with
  | sent ret m' to' =>
    simp only at hk
    split at hk
    · cases hk
    · cases hk
      cases o with
      | send now =>
        cases hd with
        | send n =>
          obtain ⟨b, h1, h2⟩ := response_entries n hq
          rw [h1] at hen
          obtain ⟨t, ht, rfl⟩ := List.mem_map.mp hen
          obtain ⟨x, hx⟩ := h2 t ht
          obtain ⟨y, hy, e1, e2⟩ := nm t.2 x hx
          refine ⟨t.2, y, hy, ?_, ?_⟩
          · have hx : d1.c.recs t.2 = some x := hx
            rw [e1]; simp only [Core.entry, hx]
          · have hx : d1.c.recs t.2 = some x := hx
            rw [e2]; simp only [Core.entry, hx]
      | _ => cases hd
  | _ => cases hk

/-- C77: after reading the configuration again the responses of the daemon, with whatever it receives and until something else is called,
contain only records the files ask for.  So nothing more is said about a service whose file was removed: no answers,
but no goodbyes either. -/
theorem C77_said {env : Env} {d d' d'' : D Ptrs} (h : Reach env d) {cb : Nat} {base : Bytes} {hostid : Nat}
    {addrs : Nat → Option (List Ip4 × List Ip6)} {p : Source} (hp : p.Readable)
    (e : reload cb base hostid addrs p d = .ok ((), d')) {hs : List Call} (n : Calls env d' hs d'')
    (st : ∀ k ∈ hs, k.1.ofStep = true) {m : Out} {to : Addr} (hm : (m, to) ∈ packetsOf hs) (hq : m.qr = true) :
    ∀ en ∈ entries m.ops, Wanted (hostname base hostid) p.services en.name en.type := by
  obtain ⟨d1, hs1, e1, cs, _, hw, _⟩ := C77_reload_partial h cb base hostid addrs p hp
  rw [e] at e1
  cases e1
  intro en hen
  obtain ⟨r, x, hx, e1, e2⟩ := said_named n (cs.reach h) st hm hq en hen
  rw [← e1, ← e2]
  exact hw r x hx

/-- C77: after reading the configuration again every service of the files is advertised, whatever was published before.
Assumed are names that fit, different names of the services, and that no other name falls into the hash chain of the name of a
PTR record (see `C63_collision_counterexample`). -/
theorem C77_advertised_partial {env : Env} {d : D Ptrs} (h : Reach env d) (cb : Nat) (base : Bytes) (hostid : Nat)
    (addrs : Nat → Option (List Ip4 × List Ip6)) (p : Source) (hp : p.Readable)
    (fit : ∀ s ∈ p.services, (instanceName (s.nameOf (hostname base hostid)) s.typeOf).length ≤ 255 ∧
      ∀ a, s.cname = some a → (rooted a).length ≤ 255)
    (names : (p.services.map fun s => instanceName (s.nameOf (hostname base hostid)) s.typeOf).Nodup)
    (clash : NoClash (hostname base hostid) p.services)
    (alias : ∀ s ∈ p.services, ∀ s' ∈ p.services, ∀ a a', s.cname = some a → s'.cname = some a' → rooted a = rooted a' →
      hostOf (hostname base hostid) s = hostOf (hostname base hostid) s') :
    ∃ d', reload cb base hostid addrs p d = .ok ((), d') ∧ ∀ s ∈ p.services,
      Advertised d' (s.nameOf (hostname base hostid)) s.typeOf (hostOf (hostname base hostid) s) s.port s.txtData s.cname := by
  obtain ⟨d1, e1, c1, n1, z1⟩ := clear_call h
  have r1 := c1.reach h
  have key : ∃ v d', confInit cb base hostid addrs p d1 = .ok (v, d') ∧ ∀ s ∈ p.services,
      Advertised d' (s.nameOf (hostname base hostid)) s.typeOf (hostOf (hostname base hostid) s) s.port s.txtData s.cname := by
    cases p with
    | missing => exact ⟨1, d1, rfl, fun s m => by cases m⟩
    | files fs =>
      exact files_advertised cb (hostname base hostid) addrs (services fs) fit clash alias fs 0 [] r1 hp rfl names
        (fun r x hx => by rw [n1 r] at hx; cases hx) (fun r x hx => by rw [n1 r] at hx; cases hx) (fun s m => by cases m)
  obtain ⟨v, d', e, a⟩ := key
  refine ⟨d', ?_, a⟩
  unfold reload
  rw [M.bind_ok e1, M.bind_ok e]
  rfl

/-! ### The hypotheses can be met -/

namespace Sample

open Mdns.Sample

/-- `type _ssh._tcp`, `port 22` -/
def fileSsh : Bytes := [0x74, 0x79, 0x70, 0x65, 0x20, 0x5F, 0x73, 0x73, 0x68, 0x2E, 0x5F, 0x74, 0x63, 0x70, 0x0A] ++
  [0x70, 0x6F, 0x72, 0x74, 0x20, 0x32, 0x32, 0x0A]

/-- `name c`, `port 80`, `cname www` -/
def fileWeb : Bytes := [0x6E, 0x61, 0x6D, 0x65, 0x20, 0x63, 0x0A, 0x70, 0x6F, 0x72, 0x74, 0x20, 0x38, 0x30, 0x0A] ++
  [0x63, 0x6E, 0x61, 0x6D, 0x65, 0x20, 0x77, 0x77, 0x77, 0x0A]

def webC : SRec := { name := some [0x63], port := 80, cname := some [0x77, 0x77, 0x77] }

theorem parse_ssh : parse fileSsh = .ok ssh := by decide +kernel
theorem parse_web : parse fileWeb = .ok webC := by decide +kernel

/-- One file was removed and one is new; another cannot be opened. -/
def dir : Source := .files [some fileSsh, none, some fileWeb]

theorem dir_services : dir.services = [ssh, webC] := by
  show services _ = _
  simp [services, parse_ssh, parse_web]

theorem dir_readable : dir.Readable := by
  intro f m
  simp at m
  rcases m with rfl | rfl
  · exact ⟨_, parse_ssh⟩
  · exact ⟨_, parse_web⟩

theorem nas_name : hostname nas 1 = nas := by decide +kernel

/-- The host with two services, some time later: its records have been announced. -/
def before : D Ptrs := (trace quiet (every 101 5) two).2

theorem before_calls : Calls quiet two (trace quiet (every 101 5) two).1 before := calls_of (by decide +kernel)

theorem before_reach : Reach quiet before := before_calls.reach two_reach

theorem dir_clash : NoClash (hostname nas 1) dir.services := by
  rw [nas_name, dir_services]
  rintro n t ⟨s, m, h⟩
  simp only [List.mem_cons, List.not_mem_nil, or_false] at m
  refine ⟨?_, fun s' m' => ?_⟩
  · rcases m with rfl | rfl
    · cases h with
      | enum => decide +kernel
      | browse => decide +kernel
      | service => decide +kernel
      | text => decide +kernel
      | v4 => decide +kernel
      | v6 => decide +kernel
      | alias h => cases h
    · cases h with
      | enum => decide +kernel
      | browse => decide +kernel
      | service => decide +kernel
      | text => decide +kernel
      | v4 => decide +kernel
      | v6 => decide +kernel
      | alias h => cases h; decide +kernel
  · simp only [List.mem_cons, List.not_mem_nil, or_false] at m'
    rcases m with rfl | rfl
    · cases h with
      | enum => rcases m' with rfl | rfl <;> decide +kernel
      | browse => rcases m' with rfl | rfl <;> decide +kernel
      | service => rcases m' with rfl | rfl <;> decide +kernel
      | text => rcases m' with rfl | rfl <;> decide +kernel
      | v4 => rcases m' with rfl | rfl <;> decide +kernel
      | v6 => rcases m' with rfl | rfl <;> decide +kernel
      | alias h => cases h
    · cases h with
      | enum => rcases m' with rfl | rfl <;> decide +kernel
      | browse => rcases m' with rfl | rfl <;> decide +kernel
      | service => rcases m' with rfl | rfl <;> decide +kernel
      | text => rcases m' with rfl | rfl <;> decide +kernel
      | v4 => rcases m' with rfl | rfl <;> decide +kernel
      | v6 => rcases m' with rfl | rfl <;> decide +kernel
      | alias h => cases h; rcases m' with rfl | rfl <;> decide +kernel

/-- C77: the host reads its configuration again.  The service `b` is gone, `ssh` and `c` are there. -/
example : ∃ d', reload 0 nas 1 (fun _ => some ([ipA], [])) dir before = .ok ((), d') ∧ Reach quiet d' ∧
    Advertised d' nas [0x5F, 0x73, 0x73, 0x68, 0x2E, 0x5F, 0x74, 0x63, 0x70] (nas ++ dotLocal) 22 [0] none ∧
    Advertised d' [0x63] httpTcp (nas ++ dotLocal) 80 [0] (some [0x77, 0x77, 0x77]) ∧
    (∃ r x, before.c.recs r = some x ∧ x.rr.name = instanceName [0x62] httpTcp) ∧
    (∀ r x, d'.c.recs r = some x → x.rr.name ≠ instanceName [0x62] httpTcp) := by
  obtain ⟨d', e, ad⟩ := C77_advertised_partial before_reach 0 nas 1 (fun _ => some ([ipA], [])) dir dir_readable
    (by
      rw [nas_name, dir_services]
      intro s m
      simp only [List.mem_cons, List.not_mem_nil, or_false] at m
      rcases m with rfl | rfl
      · exact ⟨by decide, fun a h => by cases h⟩
      · exact ⟨by decide, fun a h => by cases h; decide⟩)
    (by rw [nas_name, dir_services]; decide +kernel) dir_clash
    (by
      rw [dir_services]
      intro s m s' m' a a' h h' _
      simp only [List.mem_cons, List.not_mem_nil, or_false] at m m'
      rcases m with rfl | rfl
      · cases h
      · rcases m' with rfl | rfl
        · cases h'
        · rfl)
  obtain ⟨d1, hs, e1, cs, _, hw, _⟩ := C77_reload_partial before_reach 0 nas 1 (fun _ => some ([ipA], [])) dir dir_readable
  rw [e] at e1
  cases e1
  rw [nas_name, dir_services] at ad hw
  have g1 := ad ssh (by simp)
  have g2 := ad webC (by simp)
  have t1 : ssh.txtData = [0] := by decide +kernel
  have t2 : webC.txtData = [0] := by decide +kernel
  rw [t1] at g1
  rw [t2] at g2
  refine ⟨d', e, cs.reach before_reach, g1, g2, ?_, fun r x hx hn => ?_⟩
  · have hb : ∃ r ∈ List.range before.lists.size, ((before.c.recs r).any fun x => decide (x.rr.name = instanceName [0x62] httpTcp)) = true := by
      decide +kernel
    obtain ⟨r, _, hr⟩ := hb
    obtain ⟨x, hx, h2⟩ := (Option.any_eq_true _ _).mp hr
    exact ⟨r, x, hx, of_decide_eq_true h2⟩
  · have hw := hw r x hx
    rw [hn] at hw
    obtain ⟨s, m, h⟩ := hw
    simp only [List.mem_cons, List.not_mem_nil, or_false] at m
    generalize hg : instanceName [0x62] httpTcp = n, x.rr.type = t at h
    revert hg
    rcases m with rfl | rfl
    · cases h with
      | enum => decide +kernel
      | browse => decide +kernel
      | service => decide +kernel
      | text => decide +kernel
      | v4 => decide +kernel
      | v6 => decide +kernel
      | alias h => cases h
    · cases h with
      | enum => decide +kernel
      | browse => decide +kernel
      | service => decide +kernel
      | text => decide +kernel
      | v4 => decide +kernel
      | v6 => decide +kernel
      | alias h => cases h; decide +kernel

end Sample

/-! ### Counterexample -/

open Sample Mdns.Sample

/-- C77 is false in full: a service has been announced to everyone, with a lifetime of two minutes.  Its file is removed and the configuration
read again.  Nothing is ever said about it again: no goodbye tells other hosts that it is gone. -/
theorem C77_goodbye_counterexample : ∃ d0 hs d d', Reach quiet d0 ∧ Calls quiet d0 hs d ∧
    (∃ m to, (m, to) ∈ packetsOf hs ∧ to = mcast d0.c.family ∧ m.qr = true ∧
      ∃ e ∈ entries m.ops, e.sec = .an ∧ e.name = instanceName [0x62] httpTcp ∧ e.type = 33 ∧ e.ttl = 120) ∧
    reload 0 nas 1 (fun _ => some ([ipA], [])) .missing d = .ok ((), d') ∧
    ∀ h d'', Calls quiet d' h d'' → (∀ k ∈ h, k.1.ofStep = true) → ∀ m to, (m, to) ∈ packetsOf h → m.qr = true → entries m.ops = [] := by
  obtain ⟨d', hs, e, cs, _, hw, _⟩ := C77_reload_partial before_reach 0 nas 1 (fun _ => some ([ipA], [])) .missing trivial
  refine ⟨two, _, before, d', two_reach, before_calls, ?_, e, fun h d'' n st m to hm hq => ?_⟩
  · have hb : ∃ q ∈ packetsOf (trace quiet (every 101 5) two).1, q.2 = mcast two.c.family ∧ q.1.qr = true ∧
        ∃ e ∈ entries q.1.ops, e.sec = .an ∧ e.name = instanceName [0x62] httpTcp ∧ e.type = 33 ∧ e.ttl = 120 := by
      decide +kernel
    obtain ⟨⟨m, to⟩, h1, h2⟩ := hb
    exact ⟨m, to, h1, h2⟩
  · cases hes : entries m.ops with
    | nil => rfl
    | cons en ens =>
      obtain ⟨s, hs, _⟩ := C77_said (p := .missing) before_reach trivial e n st hm hq en (by rw [hes]; simp)
      cases hs

end Mdns.Conf
