import Verif.Model.LoadAlloc
import Verif.Props.Service

/-!
# C115: publishing a service when records get no memory
-/

namespace Mdns.Conf

open Mdns

/-! ### `record` -/

theorem behind_sub (r : Nat) (l : List Nat) : ∀ s ∈ behind r l, s ∈ l := fun _ hs =>
  (List.dropWhile_suffix _).subset (List.mem_of_mem_drop hs)

/-- The search changes nothing. -/
theorem recordLook_ok {env : Env} {d : D Ptrs} (h : Reach env d) (host : Option Bytes) (name : Bytes) (type : Nat) :
    ∃ g, recordLook host name type d = .ok (g, d) := by
  have i := h.inv.rinv
  have ef : find name type d =
      .ok (((d.c.published (bucket name sprime)).filter (d.c.isNamed name type)).head?, d) := by
    unfold find
    rw [M.bind_ok core_ok]
    exact find_go_ok _ (i.pubrec _)
  unfold recordLook
  rw [M.bind_ok ef]
  cases hh : ((d.c.published (bucket name sprime)).filter (d.c.isNamed name type)).head? with
  | none => exact ⟨none, rfl⟩
  | some r =>
    cases host with
    | none => exact ⟨some r, rfl⟩
    | some b =>
      have hm := List.mem_of_head? hh
      obtain ⟨x, hx, hxn, hxt⟩ := isNamed_iff.mp (List.mem_filter.mp hm).2
      have eb : rBehind r d = .ok (behind r (d.c.published (bucket x.rr.name sprime)), d) := by
        unfold rBehind
        rw [M.bind_ok (getRec_ok hx), M.bind_ok core_ok]
        rfl
      have es := recordScan_ok (c := d.c) (q := d.q) (host := b) (r :: behind r (d.c.published (bucket x.rr.name sprime))) (by
        intro s hs
        rcases List.mem_cons.1 hs with rfl | hs
        · exact ⟨x, hx⟩
        · exact i.pubrec _ s (behind_sub r _ s hs))
      exact ⟨_, (M.bind_ok eb).trans es⟩

theorem bind_congr {Q α β : Type} {x : M Q α} {f g : α → M Q β} {d : D Q} (h : ∀ a d', f a d' = g a d') : (x >>= f) d = (x >>= g) d := by
  have : f = g := funext fun a => funext fun d' => h a d'
  rw [this]

theorem bind_assoc' {Q α β γ : Type} (x : M Q α) (f : α → M Q β) (g : β → M Q γ) (d : D Q) :
    ((x >>= f) >>= g) d = (x >>= fun a => f a >>= g) d := by
  cases e : x d with
  | ub => rw [M.bind_ub e, M.bind_ub (M.bind_ub e)]
  | hang => rw [M.bind_hang e, M.bind_hang (M.bind_hang e)]
  | ok p =>
    obtain ⟨a, d'⟩ := p
    rw [M.bind_ok e]
    cases e2 : f a d' with
    | ub => rw [M.bind_ub e2, M.bind_ub ((M.bind_ok e).trans e2)]
    | hang => rw [M.bind_hang e2, M.bind_hang ((M.bind_ok e).trans e2)]
    | ok p =>
      obtain ⟨b, d2⟩ := p
      rw [M.bind_ok e2, M.bind_ok ((M.bind_ok e).trans e2)]

/-- `record` looks first. -/
theorem record_look {Q : Type} [QOps Q] (share : Bool) (cb : Nat) (host : Option Bytes) (name : Bytes) (type ttl : Nat) (d : D Q) :
    record share cb host name type ttl d = (recordLook host name type >>= fun g => match g with
      | some r => pure r
      | none => recordNew share cb host name type ttl) d := by
  unfold recordLook record
  rw [bind_assoc']
  apply bind_congr
  intro f d1
  cases f with
  | none => rfl
  | some r =>
    cases host with
    | none => rfl
    | some b =>
      show _ = ((rBehind r >>= fun rest => recordScan b (r :: rest)) >>= _) d1
      rw [bind_assoc']
      rfl

/-- What `record` does: as before, or nothing if there is no memory and no record that will do. -/
inductive RecordFR (mem share : Bool) (host : Option Bytes) (name : Bytes) (type ttl : Nat) (d : D Ptrs) : Option Nat → D Ptrs → Prop
  | done {r : Nat} {d' : D Ptrs} (n : RecordR share host name type ttl d r d') (hk : mem = false → d.c.recs r ≠ none) : RecordFR mem share host name type ttl d (some r) d'
  | refused (hm : mem = false)
      (no : ∀ s y, d.c.recs s = some y → y.rr.name = name → y.rr.type = type →
        match host with
        | none => False
        | some h => y.rr.rdname ≠ none ∧ y.rr.rdname ≠ some h) : RecordFR mem share host name type ttl d none d

theorem recordF_call {env : Env} {d : D Ptrs} (h : Reach env d) (mem share : Bool) (cb : Nat) (host : Option Bytes) (name : Bytes) (type ttl : Nat) :
    ∃ o d' hs, recordF mem share cb host name type ttl d = .ok (o, d') ∧ Calls env d hs d' ∧
      RecordFR mem share host name type ttl d o d' := by
  obtain ⟨g, eg⟩ := recordLook_ok h host name type
  obtain ⟨r, d', hs, e, cs, _, n⟩ := record_call h share cb host name type ttl
  rw [record_look, M.bind_ok eg] at e
  unfold recordF
  rw [M.bind_ok eg]
  obtain ⟨r2, d2, _, e2, _, _, hn, p2, _⟩ := recordNew_call h share cb host name type ttl
  cases g with
  | some r' =>
    have e : Res.ok (r', d) = .ok (r, d') := e
    injection e with e
    injection e with er ed
    subst er
    subst ed
    refine ⟨some r', d, hs, rfl, cs, .done n fun _ => ?_⟩
    cases n with
    | found hx => rw [hx]; exact fun h => nomatch h
    | made _ _ p _ =>
      obtain ⟨y, hy, _⟩ := p.here
      rw [hy]
      exact fun h => nomatch h
  | none =>
    replace e : recordNew share cb host name type ttl d = .ok (r, d') := e
    rw [e] at e2
    cases e2
    cases mem with
    | true =>
      refine ⟨some r, d', hs, ?_, cs, .done n fun h => nomatch h⟩
      show (recordNew share cb host name type ttl >>= fun r => pure (some r)) d = _
      rw [M.bind_ok e]
      rfl
    | false =>
      refine ⟨none, d, [], rfl, .nil, .refused rfl ?_⟩
      cases n with
      | found hx => rw [hn] at hx; cases hx
      | made _ no => exact no

theorem recordF_enough {Q : Type} [QOps Q] (share : Bool) (cb : Nat) (host : Option Bytes) (name : Bytes) (type ttl : Nat) (d : D Q) :
    recordF true share cb host name type ttl d = (record share cb host name type ttl >>= fun r => pure (some r)) d := by
  have : record (Q := Q) share cb host name type ttl = (recordLook host name type >>= fun g => match g with
      | some r => pure r
      | none => recordNew share cb host name type ttl) := funext fun d => record_look ..
  rw [this, bind_assoc']
  unfold recordF
  apply bind_congr
  intro g d1
  cases g <;> rfl

namespace RecordFR

variable {mem share : Bool} {host : Option Bytes} {name : Bytes} {type ttl : Nat} {d d' : D Ptrs} {o : Option Nat}

theorem lasts (n : RecordFR mem share host name type ttl d o d') (t : Nat) : Lasts t d d' := by
  cases n with
  | done n => exact n.lasts t
  | refused => exact fun s y hy _ => ⟨y, hy, rfl⟩

theorem backs (n : RecordFR mem share host name type ttl d o d') {t : Nat} (ht : type ≠ t) : Backs t d d' := by
  cases n with
  | done n => exact n.backs ht
  | refused => exact fun _ _ hy _ => hy

theorem live (n : RecordFR mem share host name type ttl d o d') (ht : ttl ≠ 0) (h : Live d) : Live d' := by
  cases n with
  | done n => exact n.live ht h
  | refused => exact h

/-- With memory, as before. -/
theorem full (n : RecordFR mem share host name type ttl d o d') (h : mem = true) : ∃ r, RecordR share host name type ttl d r d' := by
  cases n with
  | done n => exact ⟨_, n⟩
  | refused hm => rw [h] at hm; cases hm

/-- Without a name as data, NULL comes exactly if there is no record and no memory. -/
theorem null (n : RecordFR mem share none name type ttl d o d') : o = none ↔ mem = false ∧ ¬ d.has name type := by
  cases n with
  | done n hk =>
    refine ⟨fun h => (nomatch h), fun ⟨hm, hh⟩ => ?_⟩
    obtain ⟨x, hx, h1, h2⟩ := n.named
    cases n with
    | found => exact absurd ⟨_, x, hx, h1, h2⟩ hh
    | made hn => exact absurd hn (hk hm)
  | refused hm no =>
    refine ⟨fun _ => ⟨hm, ?_⟩, fun _ => rfl⟩
    rintro ⟨s, y, hy, h1, h2⟩
    exact no s y hy h1 h2

end RecordFR

theorem has_back {d d' : D Ptrs} {name : Bytes} {t : Nat} (b : Backs t d d') (h : d'.has name t) : d.has name t := by
  obtain ⟨r, x, hx, h1, h2⟩ := h
  exact ⟨r, x, b r x hx h2, h1, h2⟩

theorem has_on {d d' : D Ptrs} {name : Bytes} {t : Nat} (b : Lasts t d d') (h : d.has name t) : d'.has name t := by
  obtain ⟨r, x, hx, h1, h2⟩ := h
  obtain ⟨y, hy, e⟩ := b r x hx h2
  exact ⟨r, y, hy, by rw [e]; exact h1, by rw [e]; exact h2⟩

/-! ### `load` -/

inductive CnameFR (mem : Bool) (tgt : Bytes) (d : D Ptrs) : Option Bytes → D Ptrs → Prop
  | none : CnameFR mem tgt d none d
  | some {a : Bytes} {o : Option Nat} {d' : D Ptrs} (n : RecordFR mem true (some tgt) (fqdn 256 a) 5 120 d o d') : CnameFR mem tgt d (some a) d'

theorem CnameFR.lasts {mem : Bool} {tgt : Bytes} {d d' : D Ptrs} {a : Option Bytes} (h : CnameFR mem tgt d a d') (t : Nat) : Lasts t d d' := by
  cases h with
  | none => exact fun s y hy _ => ⟨y, hy, rfl⟩
  | some n => exact n.lasts t

theorem CnameFR.backs {mem : Bool} {tgt : Bytes} {d d' : D Ptrs} {a : Option Bytes} (h : CnameFR mem tgt d a d') {t : Nat} (ht : 5 ≠ t) :
    Backs t d d' := by
  cases h with
  | none => exact fun _ _ hy _ => hy
  | some n => exact n.backs ht

theorem CnameFR.live {mem : Bool} {tgt : Bytes} {d d' : D Ptrs} {a : Option Bytes} (n : CnameFR mem tgt d a d') (h : Live d) : Live d' := by
  cases n with
  | none => exact h
  | some n => exact n.live (by decide) h

theorem cnameF_call {env : Env} {d : D Ptrs} (h : Reach env d) (mem : Bool) (cb : Nat) (s : SRec) (hostname : Bytes) :
    ∃ d' hs, loadCnameF mem cb s hostname d = .ok ((), d') ∧ Calls env d hs d' ∧ CnameFR mem (s.tgtlocal hostname) d s.cname d' := by
  unfold loadCnameF
  cases s.cname with
  | none => exact ⟨d, [], rfl, .nil, .none⟩
  | some a =>
    obtain ⟨o, d', hs, e, cs, n⟩ := recordF_call h mem true cb (some (s.tgtlocal hostname)) (fqdn 256 a) 5 120
    refine ⟨d', hs, ?_, cs, .some n⟩
    show (recordF mem true cb (some (s.tgtlocal hostname)) (fqdn 256 a) 5 120 >>= fun _ => pure ()) d = _
    rw [M.bind_ok e]
    rfl

/-- The steps of `load`. -/
structure LoadFR (env : Env) (l : LoadLuck) (s : SRec) (hostname : Bytes) (addrs : Option (List Ip4 × List Ip6))
    (d d' d1 d2 d3 d4 d5 d6 d7 d8 d9 : D Ptrs) (o1 o2 : Option Nat) (r3 : Nat) (o5 o6 : Option Nat) (r9 : Nat) : Prop where
  enum : RecordFR l.enum true (some s.tlocal) discoName 12 120 d o1 d1
  ptr : RecordFR l.ptr true (some (s.hlocal hostname)) s.tlocal 12 120 d1 o2 d2
  srv : RecordFR l.srv false none (s.hlocal hostname) 33 120 d2 (some r3) d3
  srvData : ∃ x, d3.c.recs r3 = some x ∧ x.rr.name = s.hlocal hostname ∧ x.rr.type = 33 ∧
    Puts d3 d4 r3 { x.rr with priority := 0, weight := 0, port := s.portOf, rdname := some (s.tgtlocal hostname) }
  a : RecordFR l.a false none (s.tgtlocal hostname) 1 120 d4 o5 d5
  aaaa : RecordFR l.aaaa false none (s.tgtlocal hostname) 28 120 d5 o6 d6
  addrs : AddrsR env d6 addrs d7
  cname : CnameFR l.cname (s.tgtlocal hostname) d7 s.cname d8
  txt : RecordFR l.txt false none (s.hlocal hostname) 16 4500 d8 (some r9) d9
  txtData : ∃ x, d9.c.recs r9 = some x ∧ x.rr.name = s.hlocal hostname ∧ x.rr.type = 16 ∧
    Puts d9 d' r9 { x.rr with rdata := some s.txtData }
  reach6 : Reach env d6

theorem loadF_cases {env : Env} {d : D Ptrs} (h : Reach env d) (l : LoadLuck) (cb : Nat) (s : SRec) (hostname : Bytes)
    (addrs : Option (List Ip4 × List Ip6)) :
    (loadF l cb s hostname addrs d = .ub ∧
      ((l.srv = false ∧ ¬ d.has (s.hlocal hostname) 33) ∨ (l.txt = false ∧ ¬ d.has (s.hlocal hostname) 16))) ∨
    (∃ d' hs, loadF l cb s hostname addrs d = .ok ((), d') ∧ Calls env d hs d' ∧
      ¬ (l.srv = false ∧ ¬ d.has (s.hlocal hostname) 33) ∧ ¬ (l.txt = false ∧ ¬ d.has (s.hlocal hostname) 16) ∧
      ∃ d1 d2 d3 d4 d5 d6 d7 d8 d9 o1 o2 r3 o5 o6 r9, LoadFR env l s hostname addrs d d' d1 d2 d3 d4 d5 d6 d7 d8 d9 o1 o2 r3 o5 o6 r9) := by
  obtain ⟨o1, d1, h1, e1, n1, x1⟩ := recordF_call h l.enum true cb (some s.tlocal) discoName 12 120
  have g1 := n1.reach h
  obtain ⟨o2, d2, h2, e2, n2, x2⟩ := recordF_call g1 l.ptr true cb (some (s.hlocal hostname)) s.tlocal 12 120
  have g2 := n2.reach g1
  obtain ⟨o3, d3, h3, e3, n3, x3⟩ := recordF_call g2 l.srv false cb none (s.hlocal hostname) 33 120
  have g3 := n3.reach g2
  have nul3 := x3.null
  have i2 : d2.has (s.hlocal hostname) 33 ↔ d.has (s.hlocal hostname) 33 :=
    ⟨has_back ((x1.backs (by decide)).trans (x2.backs (by decide))), has_on ((x1.lasts 33).trans (x2.lasts 33))⟩
  rw [i2] at nul3
  cases o3 with
  | none =>
    refine .inl ⟨?_, .inl (nul3.mp rfl)⟩
    unfold loadF
    rw [M.bind_ok e1, M.bind_ok e2, M.bind_ok e3]
    rfl
  | some r3 =>
    have k3 : ¬ (l.srv = false ∧ ¬ d.has (s.hlocal hostname) 33) := fun k => nomatch nul3.mpr k
    obtain ⟨y3, hy3, nm3, ty3⟩ : ∃ x, d3.c.recs r3 = some x ∧ x.rr.name = s.hlocal hostname ∧ x.rr.type = 33 := by
      cases x3 with
      | done n _ => exact n.named
    obtain ⟨d4, h4, e4, n4, _, p4⟩ := setSrv_call g3 hy3 0 0 s.portOf (s.tgtlocal hostname)
    have g4 := n4.reach g3
    obtain ⟨o5, d5, h5, e5, n5, x5⟩ := recordF_call g4 l.a false cb none (s.tgtlocal hostname) 1 120
    have g5 := n5.reach g4
    obtain ⟨o6, d6, h6, e6, n6, x6⟩ := recordF_call g5 l.aaaa false cb none (s.tgtlocal hostname) 28 120
    have g6 := n6.reach g5
    obtain ⟨d7, h7, e7, n7, _, x7⟩ := addrs_call g6 addrs
    have g7 := n7.reach g6
    obtain ⟨d8, h8, e8, n8, x8⟩ := cnameF_call g7 l.cname cb s hostname
    have g8 := n8.reach g7
    obtain ⟨o9, d9, h9, e9, n9, x9⟩ := recordF_call g8 l.txt false cb none (s.hlocal hostname) 16 4500
    have g9 := n9.reach g8
    have nul9 := x9.null
    have i8 : d8.has (s.hlocal hostname) 16 ↔ d.has (s.hlocal hostname) 16 := by
      constructor
      · exact has_back <| (x1.backs (by decide)).trans <| (x2.backs (by decide)).trans <| (x3.backs (by decide)).trans <|
          (p4.backs (by show y3.rr.type ≠ 16; omega)).trans <| (x5.backs (by decide)).trans <| (x6.backs (by decide)).trans <|
          (x7.backs g6 (by decide) (by decide)).trans (x8.backs (by decide))
      · refine has_on <| (x1.lasts 16).trans <| (x2.lasts 16).trans <| (x3.lasts 16).trans <| Lasts.trans (p4.lasts fun x hx => ?_) <|
          (x5.lasts 16).trans <| (x6.lasts 16).trans <| (x7.lasts g6 (by decide) (by decide)).trans (x8.lasts 16)
        rw [hy3] at hx
        cases hx
        omega
    rw [i8] at nul9
    cases o9 with
    | none =>
      refine .inl ⟨?_, .inr (nul9.mp rfl)⟩
      unfold loadF
      rw [M.bind_ok e1, M.bind_ok e2, M.bind_ok e3]
      show (setSrv r3 0 0 s.portOf (s.tgtlocal hostname) >>= _) d3 = _
      rw [M.bind_ok e4, M.bind_ok e5, M.bind_ok e6, M.bind_ok e7, M.bind_ok e8, M.bind_ok e9]
      rfl
    | some r9 =>
      have k9 : ¬ (l.txt = false ∧ ¬ d.has (s.hlocal hostname) 16) := fun k => nomatch nul9.mpr k
      obtain ⟨y9, hy9, nm9, ty9⟩ : ∃ x, d9.c.recs r9 = some x ∧ x.rr.name = s.hlocal hostname ∧ x.rr.type = 16 := by
        cases x9 with
        | done n _ => exact n.named
      obtain ⟨d', h10, e10, n10, _, p10⟩ := setRaw_call g9 hy9 s.txtData
      refine .inr ⟨d', h1 ++ (h2 ++ (h3 ++ (h4 ++ (h5 ++ (h6 ++ (h7 ++ (h8 ++ (h9 ++ h10)))))))), ?_, ?_, k3, k9,
        d1, d2, d3, d4, d5, d6, d7, d8, d9, o1, o2, r3, o5, o6, r9, x1, x2, x3, ⟨y3, hy3, nm3, ty3, p4⟩, x5, x6, x7, x8, x9,
        ⟨y9, hy9, nm9, ty9, p10⟩, g6⟩
      · unfold loadF
        rw [M.bind_ok e1, M.bind_ok e2, M.bind_ok e3]
        show (setSrv r3 0 0 s.portOf (s.tgtlocal hostname) >>= _) d3 = _
        rw [M.bind_ok e4, M.bind_ok e5, M.bind_ok e6, M.bind_ok e7, M.bind_ok e8, M.bind_ok e9]
        exact e10
      · exact n1.append (n2.append (n3.append (n4.append (n5.append (n6.append (n7.append (n8.append (n9.append n10))))))))

/-! ### The theorems -/

/-- C115: with memory for each record, `load` is what C63 is about. -/
theorem C115_enough {Q : Type} [QOps Q] (cb : Nat) (s : SRec) (hostname : Bytes) (addrs : Option (List Ip4 × List Ip6)) (d : D Q) :
    loadF {} cb s hostname addrs d = load cb s hostname addrs d := by
  have k : ∀ {α : Type} (share : Bool) (host : Option Bytes) (name : Bytes) (type ttl : Nat) (f : Option Nat → M Q α) (d : D Q),
      (recordF true share cb host name type ttl >>= f) d = (record share cb host name type ttl >>= fun r => f (some r)) d := by
    intro α share host name type ttl f d
    have : recordF (Q := Q) true share cb host name type ttl = (record share cb host name type ttl >>= fun r => pure (some r)) :=
      funext fun d => recordF_enough ..
    rw [this, bind_assoc']
    rfl
  have kc : loadCnameF (Q := Q) true cb s hostname = loadCname cb s hostname := by
    unfold loadCnameF loadCname
    cases s.cname with
    | none => rfl
    | some a => exact funext fun d => k ..
  unfold loadF load
  rw [k]; apply bind_congr; intro _ d
  rw [k]; apply bind_congr; intro _ d
  rw [k]; apply bind_congr; intro r d
  apply bind_congr; intro _ d
  rw [k]; apply bind_congr; intro _ d
  rw [k]; apply bind_congr; intro _ d
  apply bind_congr; intro _ d
  show (loadCnameF true cb s hostname >>= _) d = _
  rw [kc]; apply bind_congr; intro _ d
  rw [k]

/-- C115: a NULL pointer is written through exactly if the SRV or the TXT record of the service is new and gets no memory; otherwise
loading the service comes to an end, whatever other records get none. -/
theorem C115_exact {env : Env} {d : D Ptrs} (h : Reach env d) (l : LoadLuck) (cb : Nat) (s : SRec) (hostname : Bytes)
    (addrs : Option (List Ip4 × List Ip6)) :
    (loadF l cb s hostname addrs d = .ub ↔
      (l.srv = false ∧ ¬ d.has (s.hlocal hostname) 33) ∨ (l.txt = false ∧ ¬ d.has (s.hlocal hostname) 16)) ∧
    (loadF l cb s hostname addrs d ≠ .ub → ∃ d', loadF l cb s hostname addrs d = .ok ((), d') ∧ Reach env d') := by
  rcases loadF_cases h l cb s hostname addrs with ⟨e, k⟩ | ⟨d', hs, e, cs, k1, k2, _⟩
  · exact ⟨⟨fun _ => k, fun _ => e⟩, fun n => absurd e n⟩
  · refine ⟨⟨fun u => ?_, fun u => ?_⟩, fun _ => ⟨d', e, cs.reach h⟩⟩
    · rw [e] at u
      cases u
    · rcases u with u | u
      · exact absurd u k1
      · exact absurd u k2

/-- C115: each part of the service for which there was memory is published.  For any state in which nothing but addresses is being
withdrawn, and names of at most 255 characters.  Missing: the SRV and the TXT record (`C115_null_counterexample`), and what is missing in
`C63_advertised_partial`. -/
theorem C115_published_partial {env : Env} {d : D Ptrs} (h : Reach env d) (l : LoadLuck) (cb : Nat) (s : SRec) (hostname : Bytes)
    (addrs : Option (List Ip4 × List Ip6)) (hl : Live d)
    (hn : (instanceName (s.nameOf hostname) s.typeOf).length ≤ 255)
    (ha : ∀ a, s.cname = some a → (rooted a).length ≤ 255)
    (h1 : d.has discoName 12 → Apart d discoName 12 (typeName s.typeOf))
    (h2 : d.has (typeName s.typeOf) 12 ∨ typeName s.typeOf = discoName →
      Apart d (typeName s.typeOf) 12 (instanceName (s.nameOf hostname) s.typeOf))
    (h3 : ∀ a r x, s.cname = some a → d.c.recs r = some x → x.rr.name = rooted a → x.rr.type = 5 →
      x.rr.rdname = some (s.tgtlocal hostname))
    (hsrv : l.srv = true ∨ d.has (instanceName (s.nameOf hostname) s.typeOf) 33)
    (htxt : l.txt = true ∨ d.has (instanceName (s.nameOf hostname) s.typeOf) 16) :
    ∃ d', loadF l cb s hostname addrs d = .ok ((), d') ∧ Reach env d' ∧
      (l.enum = true → Pub d' discoName 12 fun a => a.rdname = some (typeName s.typeOf)) ∧
      (l.ptr = true → Pub d' (typeName s.typeOf) 12 fun a => a.rdname = some (instanceName (s.nameOf hostname) s.typeOf)) ∧
      (Pub d' (instanceName (s.nameOf hostname) s.typeOf) 33 fun a =>
        a.rdname = some (s.tgtlocal hostname) ∧ (a.port : Int) = s.port % 65536 ∧ a.priority = 0 ∧ a.weight = 0) ∧
      (Pub d' (instanceName (s.nameOf hostname) s.typeOf) 16 fun a => a.rdata = some s.txtData) ∧
      (l.cname = true → ∀ a, s.cname = some a → Pub d' (rooted a) 5 fun x => x.rdname = some (s.tgtlocal hostname)) := by
  have ht : (typeName s.typeOf).length ≤ 255 := by
    simp [instanceName, typeName] at hn ⊢
    omega
  have hlo := hlocal_eq hn
  have tlo := tlocal_eq ht
  have hne := tlocal_ne hn
  rcases loadF_cases h l cb s hostname addrs with ⟨_, k⟩ | ⟨d', hs, e, cs, _, _, d1, d2, d3, d4, d5, d6, d7, d8, d9, o1, o2, r3, o5, o6, r9, L⟩
  · rw [hlo] at k
    rcases k with ⟨k, k'⟩ | ⟨k, k'⟩
    · rcases hsrv with e | e
      · rw [k] at e; cases e
      · exact absurd e k'
    · rcases htxt with e | e
      · rw [k] at e; cases e
      · exact absurd e k'
  refine ⟨d', e, cs.reach h, ?_⟩
  obtain ⟨x3, hx3, nm3, ty3, p4⟩ := L.srvData
  obtain ⟨x9, hx9, nm9, ty9, p10⟩ := L.txtData
  have l1 := L.enum.live (by decide) hl
  have l2 := L.ptr.live (by decide) l1
  have l3 := L.srv.live (by decide) l2
  have l4 := p4.live hx3 rfl rfl l3
  have l5 := L.a.live (by decide) l4
  have l6 := L.aaaa.live (by decide) l5
  have l7 := L.addrs.live L.reach6 l6
  have l8 := L.cname.live l7
  have l9 := L.txt.live (by decide) l8
  -- what lasts
  have k4 : ∀ t, t ≠ 33 → Lasts t d3 d4 := fun t ht => p4.lasts fun x hx => by
    rw [hx3] at hx
    cases hx
    rw [ty3]
    exact Ne.symm ht
  have k10 : ∀ t, t ≠ 16 → Lasts t d9 d' := fun t ht => p10.lasts fun x hx => by
    rw [hx9] at hx
    cases hx
    rw [ty9]
    exact Ne.symm ht
  have k48 : ∀ t, t ≠ 1 → t ≠ 28 → Lasts t d4 d9 := fun t t1 t2 =>
    (L.a.lasts t).trans <| (L.aaaa.lasts t).trans <| (L.addrs.lasts L.reach6 t1 t2).trans <| (L.cname.lasts t).trans (L.txt.lasts t)
  have k2 : ∀ t, t ≠ 33 → t ≠ 1 → t ≠ 28 → t ≠ 16 → Lasts t d2 d' := fun t a b c e =>
    (L.srv.lasts t).trans <| (k4 t a).trans <| (k48 t b c).trans (k10 t e)
  have b7 : Backs 5 d d7 := (L.enum.backs (by decide)).trans <| (L.ptr.backs (by decide)).trans <|
    (L.srv.backs (by decide)).trans <| (p4.backs (by show x3.rr.type ≠ 5; omega)).trans <| (L.a.backs (by decide)).trans <|
    (L.aaaa.backs (by decide)).trans (L.addrs.backs L.reach6 (by decide) (by decide))
  refine ⟨?_, ?_, ?_, ?_, ?_⟩
  · intro hm
    obtain ⟨r1, n⟩ := L.enum.full hm
    have := n.pub (by rw [tlo]; exact h1) hl (by decide) (by decide)
    rw [tlo] at this
    exact (this.lasts (L.ptr.lasts 12)).lasts (k2 12 (by decide) (by decide) (by decide) (by decide))
  · intro hm
    have hap : d1.has s.tlocal 12 → Apart d1 s.tlocal 12 (s.hlocal hostname) := by
      rw [tlo, hlo]
      have he := L.enum
      intro hh r x hx hb hd
      cases he with
      | refused => exact h2 (.inl hh) r x hx hb hd
      | @done r1 _ he =>
        cases he with
        | found => exact h2 (.inl hh) r x hx hb hd
        | made hnn no p _ =>
          have h2 := h2 (by
            obtain ⟨q, z, hz, z1, z2⟩ := hh
            by_cases er : q = r1
            · subst er
              obtain ⟨y, hy, hr⟩ := p.here
              rw [hz] at hy
              cases hy
              rw [hr] at z1
              exact .inr z1.symm
            · rw [p.others q er] at hz
              exact .inl ⟨q, z, hz, z1, z2⟩)
          by_cases er : r = r1
          · subst er
            obtain ⟨y, hy, hr⟩ := p.here
            rw [hx] at hy
            cases hy
            rw [hr] at hd
            rcases hd with hd | hd
            · cases hd
            · injection hd with hd
              exact absurd (hd.trans hlo.symm) hne
          · rw [p.others r er] at hx
            exact h2 r x hx hb hd
    obtain ⟨r2, n⟩ := L.ptr.full hm
    have := n.pub hap l1 (by decide) (by decide)
    rw [tlo, hlo] at this
    exact this.lasts (k2 12 (by decide) (by decide) (by decide) (by decide))
  · obtain ⟨y, hy, hr⟩ := p4.here
    have : Pub d4 (instanceName (s.nameOf hostname) s.typeOf) 33 fun a =>
        a.rdname = some (s.tgtlocal hostname) ∧ (a.port : Int) = s.port % 65536 ∧ a.priority = 0 ∧ a.weight = 0 := by
      refine ⟨r3, y, hy, by rw [hr, ← hlo]; exact nm3, by rw [hr]; exact ty3, ?_, by rw [hr], ?_, by rw [hr], by rw [hr]⟩
      · intro h0
        rcases l4 r3 y hy h0 with e | e
        · rw [hr] at e
          have : x3.rr.type = 1 := e
          omega
        · rw [hr] at e
          have : x3.rr.type = 28 := e
          omega
      · rw [hr]
        show ((s.port % 65536).toNat : Int) = _
        omega
    exact this.lasts ((k48 33 (by decide) (by decide)).trans (k10 33 (by decide)))
  · obtain ⟨y, hy, hr⟩ := p10.here
    refine ⟨r9, y, hy, by rw [hr, ← hlo]; exact nm9, by rw [hr]; exact ty9, ?_, by rw [hr]⟩
    intro h0
    rw [hr] at h0
    have h0 : x9.rr.ttl = 0 := h0
    rcases l9 r9 x9 hx9 h0 with e | e <;> omega
  · intro hm a hca
    have hc := L.cname
    rw [hca] at hc
    have hfq := fqdn_rooted (ha a hca)
    have : Pub d8 (rooted a) 5 fun x => x.rdname = some (s.tgtlocal hostname) := by
      generalize hh : some a = ca at hc
      cases hc with
      | none => cases hh
      | @some a' o d8 n =>
        cases hh
        obtain ⟨r, n⟩ := n.full hm
        cases n with
        | found hx hb hm =>
          obtain ⟨q, z, hz, zn, zt⟩ := hm.2
          rw [hfq] at zn
          have := b7 q z hz zt
          refine ⟨q, z, hz, zn, zt, fun h0 => ?_, h3 a q z hca this zn zt⟩
          rcases l7 q z hz h0 with e | e <;> omega
        | made hnn _ p _ =>
          obtain ⟨y, hy, e⟩ := p.here
          exact ⟨r, y, hy, by rw [e, hfq], by rw [e], by rw [e]; exact Nat.succ_ne_zero 119, by rw [e]⟩
    exact (this.lasts (L.txt.lasts 5)).lasts (k10 5 (by decide))

/-- C115, the full statement is false: for any service that is not there yet, if its SRV record gets no memory, a NULL pointer is written
through, whatever else there is memory for. -/
theorem C115_null_counterexample {env : Env} {d : D Ptrs} (h : Reach env d) (l : LoadLuck) (cb : Nat) (s : SRec) (hostname : Bytes)
    (addrs : Option (List Ip4 × List Ip6)) (hm : l.srv = false) (hn : ¬ d.has (s.hlocal hostname) 33) :
    loadF l cb s hostname addrs d = .ub :=
  (C115_exact h l cb s hostname addrs).1.mpr (.inl ⟨hm, hn⟩)

/-! ### Examples -/

open Sample Mdns.Sample

/-- Two services are there; the third gets no memory for its enumeration record and its alias, and is published otherwise.  Without
memory for its SRV or TXT record, NULL is written through. -/
example : (∃ d', loadF { enum := false, cname := false, aaaa := false } 0 webA nas (some ([ipA, ipB], [])) two = .ok ((), d') ∧
      (Pub d' (typeName webA.typeOf) 12 fun a => a.rdname = some (instanceName (webA.nameOf nas) webA.typeOf)) ∧
      (Pub d' (instanceName (webA.nameOf nas) webA.typeOf) 16 fun a => a.rdata = some webA.txtData)) ∧
    loadF { srv := false } 0 webA nas none two = .ub ∧ loadF { txt := false } 0 webA nas none two = .ub := by
  have r0 := two_reach
  have hl : Live two := live_of r0 (by decide +kernel)
  have a1 : Apart two discoName 12 (typeName webA.typeOf) := apart_of r0 (by decide +kernel)
  have a2 : Apart two (typeName webA.typeOf) 12 (instanceName (webA.nameOf nas) webA.typeOf) := apart_of r0 (by decide +kernel)
  have n5 := none_of (name := rooted [0x77, 0x77, 0x77]) (type := 5) r0 (by decide +kernel)
  have n33 := none_of (name := webA.hlocal nas) (type := 33) r0 (by decide +kernel)
  have n16 := none_of (name := webA.hlocal nas) (type := 16) r0 (by decide +kernel)
  have hn : (instanceName (webA.nameOf nas) webA.typeOf).length ≤ 255 := by decide
  have ha : ∀ a, webA.cname = some a → (rooted a).length ≤ 255 := fun a e => by cases e; decide
  refine ⟨?_, (C115_exact r0 _ 0 webA nas none).1.mpr (.inl ⟨rfl, ?_⟩), (C115_exact r0 _ 0 webA nas none).1.mpr (.inr ⟨rfl, ?_⟩)⟩
  · obtain ⟨d', e, _, _, p, _, t, _⟩ := C115_published_partial r0 { enum := false, cname := false, aaaa := false } 0 webA nas
      (some ([ipA, ipB], [])) hl hn ha (fun _ => a1) (fun _ => a2)
      (fun a r x e hx h1 h2 => by cases e; exact (n5 r x hx h1 h2).elim) (.inl rfl) (.inl rfl)
    exact ⟨d', e, p rfl, t⟩
  · rintro ⟨r, x, hx, h1, h2⟩
    exact n33 r x hx h1 h2
  · rintro ⟨r, x, hx, h1, h2⟩
    exact n16 r x hx h1 h2

end Mdns.Conf
