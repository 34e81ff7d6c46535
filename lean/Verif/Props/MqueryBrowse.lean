import Verif.Props.MqueryRun

/-!
# C82: what `mquery` prints without `-D`
-/

namespace Mdns.Mquery

open Mdns.CLib

/-! ### Specification -/

/-- A line of the list of services found: the name, and the address of the host that told of it. -/
def found (np : Ntop) (n : Bytes) (ip : Ip) : Bytes :=
  [0x2B, 0x20] ++ n ++ [0x20, 0x28] ++ (match ip with | .v4 x => np.v4 x | .v6 x => np.v6 x) ++ [0x29, 0x0A]

/-- The record is about the name asked for, or about one the name asked for points to. -/
def AskedFor (rs : List Round) (name : Bytes) (r : Resource) : Prop :=
  r.name = name ∨ ∃ r0, GotAny rs r0 ∧ r0.type = 12 ∧ r0.name = name ∧ r0.known = .name r.name

/-- Seconds as they are printed. -/
def shown : Int → Bytes
  | .ofNat n => decimal n
  | .negSucc n => 0x2D :: decimal (n + 1)

/-- Types as they are printed: `A (1)`, `NS (2)`, .. (`TR (12)` is never seen), and `UNKNOWN (..)`. -/
def typeText : Nat → Bytes
  | 1 => [0x41, 0x20, 0x28, 0x31, 0x29]
  | 2 => [0x4E, 0x53, 0x20, 0x28, 0x32, 0x29]
  | 5 => [0x43, 0x4E, 0x41, 0x4D, 0x45, 0x20, 0x28, 0x35, 0x29]
  | 12 => [0x54, 0x52, 0x20, 0x28, 0x31, 0x32, 0x29]
  | 16 => [0x54, 0x58, 0x54, 0x20, 0x28, 0x31, 0x36, 0x29]
  | 28 => [0x41, 0x41, 0x41, 0x41, 0x20, 0x28, 0x32, 0x38, 0x29]
  | 33 => [0x53, 0x52, 0x56, 0x20, 0x28, 0x33, 0x33, 0x29]
  | 255 => [0x41, 0x4E, 0x59, 0x20, 0x28, 0x32, 0x35, 0x35, 0x29]
  | t => ([0x55, 0x4E, 0x4B, 0x4E, 0x4F, 0x57, 0x4E, 0x20, 0x28] ++ decimal t ++ [0x29]).take 19

/-- What `-s` prints about a record, given the seconds; those of no record the format is for are counted in bytes. -/
def described (np : Ntop) (r : Resource) (secs : Int) : Bytes :=
  let mid := txtFor ++ shown secs ++ txtSeconds
  match r.type, r.known with
  | 1, .a ip => [0x41, 0x20] ++ r.name ++ mid ++ txtToIp ++ np.v4 (toVec 4 ip) ++ [0x0A]
  | 28, .aaaa ip => [0x41, 0x41, 0x41, 0x41, 0x20] ++ r.name ++ mid ++ txtToIp ++ np.v6 (toVec 16 ip) ++ [0x0A]
  | 12, .name n => [0x50, 0x54, 0x52, 0x20] ++ r.name ++ mid ++ txtTo ++ n ++ [0x0A]
  | 33, .srv _ _ port n => [0x53, 0x52, 0x56, 0x20] ++ r.name ++ mid ++ txtTo ++ n ++ [0x3A] ++ decimal port ++ [0x0A]
  | t, _ => typeText t ++ [0x20] ++ r.name ++ mid ++ txtWith ++ decimal r.rdata.length ++ txtData ++ [0x0A]

/-! ### Proofs -/

theorem decimalInt_shown (n : Int) : decimalInt n = shown n := by
  cases n with
  | ofNat n => rfl
  | negSucc n =>
    unfold decimalInt
    rw [if_pos (Int.negSucc_lt_zero n)]
    rfl

theorem type2str_text (t : Nat) : type2str t = typeText t := by
  unfold typeText
  split
  case h_9 =>
    rename_i h1 h2 h3 h4 h5 h6 h7 h8
    unfold type2str
    dsimp only
    rw [if_neg h1, if_neg h2, if_neg h3, if_neg h4, if_neg h5, if_neg h6, if_neg h7, if_neg h8]
    rfl
  all_goals decide +kernel

theorem callback_made {log : List Event} {n : Bytes} {t cb : Nat} (h : callback log n t = some cb) : Event.registered n t cb ∈ log := by
  rcases callback_since log (log := []) (by simpa using h) with h | h
  · cases h
  · exact h

section
variable {np : Ntop} {simple : Bool} {ifs : Nat → Option (List Ip)} {f : Family} {name : Bytes} {type : Nat} {o : Opts} {start fuel : Nat}
  {rs : List Round} {k k' : Kept} {t0 : TV} {v : Verdict} {tvs : List TV} {d : D Ptrs}

/-- A query was made for the name given, or by a callback. -/
theorem made_by (e : program (ansEnv simple ifs) f name type o start fuel rs k (newD 1 1000 t0) = .ok ((v, tvs, k'), d)) {host : Bytes} {ty cb : Nat}
    (m : Event.registered host ty cb ∈ d.c.log) :
    (host = name ∧ ty = type ∧ cb = 0) ∨ (simple = false ∧ ty = 12 ∧ cb = 1 ∧
      ∃ q b, Event.answer q 0 b ∈ d.c.log ∧ b.type = 12 ∧ b.rdname.getD [] = host) := by
  obtain ⟨hs, n, ho⟩ := program_was (ansEnv_keeps simple ifs) e
  rcases n.gram.source host ty cb m with ⟨out, mh⟩ | ⟨pre, q, cb', rr, post, hl, hr⟩
  · rcases List.mem_cons.mp mh with mh | mh
    · cases mh
    rcases List.mem_cons.mp mh with mh | mh
    · cases mh
      exact .inl ⟨rfl, rfl, rfl⟩
    · exact absurd (ho _ mh).1 (by simp [Op.ofStep])
  · right
    have hr' : (host, ty, cb) ∈ (ansAct simple (pre ++ [.answer q cb' rr])).reg := hr
    unfold ansAct at hr'
    rw [List.getLast?_append, List.getLast?_singleton] at hr'
    simp only [Option.some_or] at hr'
    split at hr'
    · rename_i h
      obtain ⟨h1, h2, h3⟩ := h
      cases List.mem_singleton.mp hr'
      subst h3
      exact ⟨h1, rfl, rfl, q, rr, by rw [hl]; simp, h2, rfl⟩
    · cases hr'

/-- What is told is about the name given, or about one it points to. -/
theorem told_for (e : program (ansEnv simple ifs) f name type o start fuel rs k (newD 1 1000 t0) = .ok ((v, tvs, k'), d)) {q cb : Nat} {b : Answer}
    (m : Event.answer q cb b ∈ d.c.log) :
    (b.name = name ∧ (type = b.type ∨ type = 255) ∧ cb = 0) ∨ (simple = false ∧ b.type = 12 ∧ cb = 1 ∧
      ∃ r0, GotAny rs r0 ∧ r0.type = 12 ∧ r0.name = name ∧ r0.known = .name b.name) := by
  obtain ⟨hs, n, ho⟩ := program_was (ansEnv_keeps simple ifs) e
  have ok := C24_answers_fit n.reach
  have asked : ∀ q cb b, Event.answer q cb b ∈ d.c.log → ∃ ty, typeFits ty b ∧ Event.registered b.name ty cb ∈ d.c.log := by
    intro q cb b m
    obtain ⟨pre, post, hl⟩ := List.append_of_mem m
    obtain ⟨ty, hf, hc⟩ := ok _ _ _ _ _ hl
    exact ⟨ty, hf, by rw [hl]; exact List.mem_append_left _ (callback_made hc)⟩
  obtain ⟨ty, hf, hm⟩ := asked q cb b m
  rcases made_by e hm with ⟨h1, h2, h3⟩ | ⟨h1, h2, h3, q', b', m', h4, h5⟩
  · subst h2
    exact .inl ⟨h1, hf, h3⟩
  · right
    subst h2
    have hb : b.type = 12 := by
      rcases hf with h | h
      · exact h.symm
      · cases h
    obtain ⟨ty', _, hm'⟩ := asked q' 0 b' m'
    rcases made_by e hm' with ⟨h6, _, _⟩ | ⟨_, _, h6, _⟩
    · obtain ⟨now, src, r, g, hw, s, _⟩ := program_told (ansEnv_keeps simple ifs) e q' 0 b' m'
      obtain ⟨e1, e2⟩ := carries_name s.data
      obtain ⟨x, hk, hr⟩ := carries_ptr s.data hw h4
      rw [hr] at h5
      exact ⟨h1, hb, h3, r, ⟨now, src, g⟩, e2.symm.trans h4, e1.symm.trans h6, by rw [hk]; exact congrArg _ h5⟩
    · cases h6

/-- C82, what is printed: each line of `mquery NAME` names what a pointer received points to, and who sent it; the pointer is one of
the name asked for, or of a name that points to. -/
theorem C82_lines {clock : Nat → Nat} (e : program (ansEnv false ifs) f name type o start fuel rs k (newD 1 1000 t0) = .ok ((v, tvs, k'), d)) :
    ∀ l ∈ textsOf np false clock d.c.log, l = [] ∨ ∃ now src r n, Got rs now src r ∧ r.type = 12 ∧ r.known = .name n ∧ AskedFor rs name r ∧
      (src.ip ≠ .v4 ip4Zero → l = found np n src.ip) := by
  intro l ml
  obtain ⟨⟨⟨b, s⟩, i⟩, mb, rfl⟩ := List.mem_map.mp ml
  obtain ⟨q, cb, mc, _⟩ := mem_callsOf (List.fst_mem_of_mem_zipIdx mb)
  show browseText np b = [] ∨ ∃ now src r n, _ ∧ _ ∧ _ ∧ _ ∧ (_ → browseText np b = _)
  by_cases ht : b.type = 12
  case neg => exact .inl (if_pos ht)
  right
  obtain ⟨now, src, r, g, hw, s, _⟩ := program_told (ansEnv_keeps false ifs) e q cb b mc
  obtain ⟨e1, e2⟩ := carries_name s.data
  obtain ⟨n, hk, hr⟩ := carries_ptr s.data hw ht
  refine ⟨now, src, r, n, g, e2.symm.trans ht, hk, ?_, fun hsrc => ?_⟩
  · rcases told_for e mc with ⟨h, _⟩ | ⟨_, _, _, r0, g0, h1, h2, h3⟩
    · exact .inl (e1.symm.trans h)
    · exact .inr ⟨r0, g0, h1, h2, by rw [h3, e1]⟩
  · have hs := s.sender n hk
    unfold found browseText
    rw [if_neg (by simp [ht]), hr]
    cases hip : src.ip with
    | v4 x =>
      rw [hip] at hs hsrc
      have hs : b.ip = x := hs
      rw [hs, if_pos fun h => hsrc (by rw [h])]
      rfl
    | v6 x =>
      rw [hip] at hs
      rw [hs.2, if_neg (by simp), hs.1]
      rfl

/-- C82, what is printed: each line of `mquery -s NAME` describes a record received for the name and type asked for.  The seconds are
what the cache gives the record less the time of printing, as far as this fits 32 bits, or 0. -/
theorem C82_described {clock : Nat → Nat} (e : program (ansEnv true ifs) f name type o start fuel rs k (newD 1 1000 t0) = .ok ((v, tvs, k'), d)) :
    ∀ i l, (textsOf np true clock d.c.log)[i]? = some l → ∃ now src r secs, Got rs now src r ∧ r.name = name ∧ (type = r.type ∨ type = 255) ∧
      l = described np r secs ∧ (secs = 0 ∨ (-(2 : Int) ^ 31 ≤ secs ∧ secs < 2 ^ 31 ∧ ((lease now r : Int) - clock i - secs) % 2 ^ 32 = 0)) := by
  intro i l hl
  unfold textsOf at hl
  rw [List.getElem?_map, List.getElem?_zipIdx] at hl
  obtain ⟨⟨⟨b, s⟩, j⟩, hb, rfl⟩ := Option.map_eq_some_iff.mp hl
  obtain ⟨⟨b', s'⟩, hb', ee⟩ := Option.map_eq_some_iff.mp hb
  cases ee
  obtain ⟨q, cb, mc, _⟩ := mem_callsOf (List.mem_of_getElem? hb')
  obtain ⟨now, src, r, g, hw, s, ht⟩ := program_told (ansEnv_keeps true ifs) e q cb b mc
  obtain ⟨e1, e2⟩ := carries_name s.data
  rcases told_for e mc with ⟨h1, h2, _⟩ | ⟨h, _⟩
  case inr => cases h
  refine ⟨now, src, r, secondsLeft b.ttl (clock i), g, e1.symm.trans h1, by rw [← e2]; exact h2, ?_, ?_⟩
  · simp only [Nat.zero_add, ↓reduceIte]
    unfold simpleText described
    rw [decimalInt_shown]
    dsimp only
    by_cases t1 : b.type = 1
    · obtain ⟨ip, hk, hi⟩ := carries_a s.data hw t1
      rw [if_pos t1, hk, ← e2, t1, hi, e1]
      rfl
    rw [if_neg t1]
    by_cases t2 : b.type = 28
    · obtain ⟨ip, hk, hi⟩ := carries_aaaa s.data hw t2
      rw [if_pos t2, hk, ← e2, t2, hi, e1]
      rfl
    rw [if_neg t2]
    by_cases t3 : b.type = 12
    · obtain ⟨n, hk, hi⟩ := carries_ptr s.data hw t3
      rw [if_pos t3, hk, ← e2, t3, hi, e1]
      rfl
    rw [if_neg t3]
    by_cases t4 : b.type = 33
    · obtain ⟨n, hk, hi⟩ := carries_srv s.data hw t4
      rw [if_pos t4, hk, ← e2, t4, hi, e1]
      rfl
    rw [if_neg t4, type2str_text, ← e2, e1, s.raw]
    split
    · exact absurd ‹b.type = 1› t1
    · exact absurd ‹b.type = 28› t2
    · exact absurd ‹b.type = 12› t3
    · exact absurd ‹b.type = 33› t4
    · rfl
  · unfold secondsLeft
    split
    · exact .inl rfl
    · rename_i h0
      rcases ht with h | h
      · exact absurd h h0
      · right
        rw [← h]
        have h1 := Int.bmod_lt (x := (b.ttl : Int) - clock i) (m := 2 ^ 32) (by decide)
        have h2 := Int.le_bmod (x := (b.ttl : Int) - clock i) (m := 2 ^ 32) (by decide)
        refine ⟨by omega, by omega, ?_⟩
        have := Int.bmod_emod (x := (b.ttl : Int) - clock i) (m := 2 ^ 32)
        omega

end

/-- C82, what is found is followed: a name the name asked for points to is asked for as well. -/
theorem C82_follows {ifs : Nat → Option (List Ip)} {h : List Call} {d : D Ptrs} (n : Hist (ansEnv false ifs) h d) (ha : KeepsAsking h)
    {q : Nat} {b : Answer} (m : Event.answer q 0 b ∈ d.c.log) (ht : b.type = 12) {rd : Bytes} (hr : b.rdname = some rd) :
    (callback d.c.log rd 12).isSome := by
  obtain ⟨pre, post, hl⟩ := List.append_of_mem m
  obtain ⟨post', hp⟩ := n.gram.regs pre q 0 b post hl
  have hreg : ((ansEnv false ifs).answer (pre ++ [.answer q 0 b])).reg = [(rd, 12, 1)] := by
    show (ansAct false _).reg = _
    unfold ansAct
    rw [List.getLast?_append, List.getLast?_singleton]
    simp [ht, hr]
  rw [hreg] at hp
  refine registered_stays (cb := 1) ?_ (never_ends (ansEnv_stop false ifs) n ha _ _)
  rw [hl, hp]
  simp [regEvents]

/-- C82, what is found is printed (partial): a pointer in a response is printed if it was asked for before the response arrived and
was not known yet.  Missing: pointers that arrive before those that lead to them, see `C82_missed_counterexample`. -/
theorem C82_shown_partial {np : Ntop} {ifs : Nat → Option (List Ip)} {h1 h2 : List Call} {d1 d : D Ptrs} {now : TV} {m : Msg} {src : Addr}
    {out : OpOut} (n1 : Hist (ansEnv false ifs) h1 d1) (n2 : Calls (ansEnv false ifs) d1 ((.recv now m src, out) :: h2) d)
    (ha : KeepsAsking (h1 ++ (.recv now m src, out) :: h2)) (hr : Response (ansEnv false ifs) d1 m src) {r : Resource} (mr : r ∈ m.an)
    (h0 : r.ttl ≠ 0) (ht : r.type = 12) (hq : (callback d1.c.log r.name 12).isSome)
    (hl : ∀ b ∈ d1.c.listed r.name 12, carries r b = false) (clock : Nat → Nat) :
    ∃ n ip, r.known = .name n ∧ found np n ip ∈ textsOf np false clock d.c.log := by
  obtain ⟨d', n3, n4⟩ := Calls.split (pre := [(.recv now m src, out)]) n2
  obtain ⟨d'', evs, e, hlog, _, hT⟩ := hr.hears now
  have e3 := n3.single.2
  rw [e] at e3
  cases e3
  obtain ⟨evs2, hlog2⟩ := n4.log (n3.reach hr.reach)
  have hun := never_ends (ansEnv_stop false ifs) (n1.calls n2) ha r.name 12
  rw [hlog2, hlog] at hun
  obtain ⟨pre, q, cb, b, post, e1, _, e2, e3⟩ := hT r.name 12 (by decide) hq (fun h => hun (by simp [h])) r mr rfl ht h0 hl
  have hb := (carries_name e2).2.trans ht
  obtain ⟨n, hk, hrd⟩ := carries_ptr e2 (hr.wf r mr) hb
  have mc : Event.answer q cb b ∈ d.c.log := by
    rw [hlog2, hlog, e1]
    simp
  refine ⟨n, if b.ip ≠ ip4Zero then .v4 b.ip else .v6 b.ip6, hk, ?_⟩
  have mt : browseText np b ∈ textsOf np false clock d.c.log := by
    have : (b, cb == 1) ∈ callsOf d.c.log := List.mem_filterMap.mpr ⟨_, mc, rfl⟩
    obtain ⟨i, hi⟩ := List.getElem?_of_mem this
    exact List.mem_map.mpr ⟨((b, cb == 1), i), List.mk_mem_zipIdx_iff_getElem?.mpr hi, rfl⟩
  have : browseText np b = found np n (if b.ip ≠ ip4Zero then .v4 b.ip else .v6 b.ip6) := by
    unfold browseText found
    rw [if_neg (by simp [hb]), hrd]
    split <;> rfl
  rw [← this]
  exact mt

/-! ### Examples -/

namespace Sample

open Mdns.Sample

/-- `mquery t.` and what it prints; `simple` is `-s`, the clock shows second 101. -/
def prints (simple : Bool) (name : Bytes) (rs : List Round) : Option (Verdict × List Bytes) :=
  match program (ansEnv simple fun _ => some []) .inet name 12 { terminate := true } 100 20 rs blank (newD 1 1000 (at_ 100)) with
  | .ok ((v, _, _), d) => some (v, textsOf sampleNtop simple (fun _ => 101) d.c.log)
  | _ => none

/-- The pointer with lifetime 0. -/
def recBye : Bytes := wireT ++ [0, 12, 0, 1, 0, 0, 0, 0, 0, 5] ++ wireI

set_option maxRecDepth 100000 in
/-- C82: a service is shown with the address of its host. -/
example : prints false nameT [rd 100 100, rd 100 101 [arrives 101 [recType]], rd 101 103] =
    some (.done, [found sampleNtop nameI (.v4 #v[10, 0, 0, 1])]) := by
  decide +kernel

/-- The world of a sample `mquery`. -/
abbrev plain : Env := ansEnv false fun _ => some []

/-- `mquery` asks for all services and hears of `t.`. -/
def browsing : List Call × D Ptrs := trace plain [.query discoName 12 (some 0), .recv (at_ 101) (telling [pDisco]) other] (newD 1 1000 (at_ 100))

theorem browsing_calls : Calls plain (newD 1 1000 (at_ 100)) browsing.1 browsing.2 := calls_in (ansEnv_keeps _ _) (by decide +kernel)

/-- C82: the case of `C82_follows` occurs. -/
example : KeepsAsking browsing.1 ∧ (browsing.2.c.log.filterMap fun | .answer _ cb b => some (b.type, cb, b.rdname) | _ => none) =
      [(12, 0, some nameT)] ∧ (callback browsing.2.c.log nameT 12).isSome :=
  ⟨keeps_of (by decide +kernel), by decide +kernel, by decide +kernel⟩

/-- C82: then it hears of `i.t.`. -/
def browsing2 : List Call × D Ptrs := trace plain [.recv (at_ 102) (telling [pType]) other] browsing.2

example : ∃ h1 h2 d1 d now m src out, Hist plain h1 d1 ∧ Calls plain d1 ((.recv now m src, out) :: h2) d ∧
    KeepsAsking (h1 ++ (.recv now m src, out) :: h2) ∧ Response plain d1 m src ∧ pType ∈ m.an ∧
    (callback d1.c.log pType.name 12).isSome ∧ (∀ b ∈ d1.c.listed pType.name 12, carries pType b = false) := by
  have n1 := browsing_calls
  have n2 : Calls plain browsing.2 browsing2.1 browsing2.2 := calls_in (ansEnv_keeps _ _) (by decide +kernel)
  have e : browsing2.1 = [(.recv (at_ 102) (telling [pType]) other, .unit)] := by
    unfold browsing2
    have : (trace plain [.recv (at_ 102) (telling [pType]) other] browsing.2).1.map (·.2) = [.unit] := by decide +kernel
    unfold trace at this ⊢
    split at this
    · rename_i a d' h
      have : a = .unit := by simpa [trace] using this
      rw [this]
      rfl
    · cases this
  rw [e] at n2
  refine ⟨_, [], _, _, at_ 102, telling [pType], other, .unit, n1.hist, n2, ?_, ⟨n1.reach (.new ..), by decide +kernel, rfl, ?_, ?_⟩,
    by simp [telling], by decide +kernel, by decide +kernel⟩
  · intro c mc
    rcases List.mem_append.mp mc with mc | mc
    · exact keeps_of (by decide +kernel) c mc
    · cases List.mem_singleton.mp mc
      intro n t h
      cases h
  · have ha : browsing.2.c.addr ≠ #v[10, 0, 0, 9] := by decide +kernel
    exact ⟨fun a e => (by cases e; exact ha.symm), fun a e => (by cases e), fun n l e => (by cases e; simp)⟩
  · intro r mr
    cases List.mem_singleton.mp mr
    constructor <;> simp [pType]

end Sample

open Mdns.Mquery.Sample Mdns.Sample

set_option maxRecDepth 100000 in
/-- C82 is false in full: a service that goes is printed like one that is found. -/
theorem C82_gone_counterexample : prints false nameT [rd 100 100, rd 100 101 [arrives 101 [recType]], rd 101 102 [arrives 102 [recBye]], rd 102 103, rd 103 105] =
    some (.done, [found sampleNtop nameI (.v4 #v[10, 0, 0, 1]), found sampleNtop nameI (.v4 #v[10, 0, 0, 1])]) := by
  decide +kernel

set_option maxRecDepth 100000 in
/-- C82 is false in full: a service that comes before the pointer to its type is not printed. -/
theorem C82_missed_counterexample : prints false discoName [rd 100 100, rd 100 101 [arrives 101 [recType, recDisco]],
    rd 101 102 [arrives 102 [recType, recDisco]], rd 102 104] = some (.done, [found sampleNtop nameT (.v4 #v[10, 0, 0, 1])]) := by
  decide +kernel

set_option maxRecDepth 100000 in
/-- C82 is false in full: the seconds are not those the record was sent with; a record of 120 seconds is shown with 68. -/
theorem C82_seconds_counterexample : prints true nameT [rd 100 100, rd 100 101 [arrives 101 [recType]], rd 101 103] =
    some (.done, [described sampleNtop pType 68]) := by
  decide +kernel

end Mdns.Mquery
