import Verif.Props.Reload
import Verif.Props.Lasting

/-!
# C102: a conflict is settled by another name
-/

namespace Mdns.Conf

open Mdns CLib

/-! ### Specification -/

/-- A name that a service file fixes: it asks for records of this name whatever the host is called. -/
def Fixed (ss : List SRec) (name : Bytes) : Prop := ∃ s ∈ ss, ∃ t, ∀ host, Asks host s name t

/-- The host can be told apart by the numbers: there is room for them behind the name without number. -/
def Roomy (base : Bytes) (n m : Nat) : Prop := n ≤ 1 ∨ m ≤ 1 → base.length + 11 < 255

/-- The number the daemon starts with, 0 or 1, gives the name as it is. -/
def Other (n m : Nat) : Prop := n ≠ m ∧ (1 < n ∨ 1 < m) ∧ n < 2 ^ 31 ∧ m < 2 ^ 31

/-! ### Names -/

theorem hostname_plain (base : Bytes) {n : Nat} (h : n ≤ 1) : hostname base n = base.take 254 := by
  unfold hostname
  rw [if_neg (by omega)]
  rfl

/-- No name of one number, with a period, begins a name of another number. -/
theorem host_apart {base : Bytes} {n m : Nat} (ho : Other n m) (hr : Roomy base n m) {u v : Bytes}
    (hle : (hostname base n).length ≤ (hostname base m).length) :
    cut (hostname base n ++ 0x2E :: u) ≠ cut (hostname base m ++ 0x2E :: v) := by
  intro e
  obtain ⟨hne, h1, h2, h3⟩ := ho
  have dn := decimal_length
  have key : ∀ k : Nat, k < 2 ^ 31 → (hostname base k).length ≤ 254 := by
    intro k hk
    by_cases h : 1 < k
    · obtain ⟨a, -, ha, la, -⟩ := hostname_eq base k h hk
      rw [ha]; simp; omega
    · rw [hostname_plain base (by omega)]
      simp
      omega
  have ln := key n h2
  have lm := key m h3
  unfold cut at e
  have at_ : ∀ i, i < 255 → (hostname base n ++ 0x2E :: u)[i]? = (hostname base m ++ 0x2E :: v)[i]? := by
    intro i hi
    have := congrArg (fun l : Bytes => l[i]?) e
    simpa [List.getElem?_take, hi] using this
  by_cases heq : (hostname base n).length = (hostname base m).length
  · -- the same length, so the same name
    have he : hostname base n = hostname base m := by
      have := congrArg (List.take (hostname base n).length) e
      rw [List.take_take, List.take_take, Nat.min_eq_left (by omega)] at this
      rw [List.take_left] at this
      rw [this, heq, List.take_left]
    by_cases hn : 1 < n <;> by_cases hm : 1 < m
    · exact C48_distinct base n m hn h2 hm h3 hne he
    · have hb := hr (.inr (by omega))
      have d10 := decimal_length n 10 (by omega) (by omega)
      rw [hostname_plain base (by omega : m ≤ 1)] at he
      obtain ⟨a, -, ha, -, hs⟩ := C48_suffix base n hn h2
      rw [ha, hs (by omega)] at he
      have := congrArg List.length he
      simp at this
      omega
    · have hb := hr (.inl (by omega))
      have d10 := decimal_length m 10 (by omega) (by omega)
      rw [hostname_plain base (by omega : n ≤ 1)] at he
      obtain ⟨a, -, ha, -, hs⟩ := C48_suffix base m hm h3
      rw [ha, hs (by omega)] at he
      have := congrArg List.length he
      simp at this
      omega
    · omega
  · -- the period behind the shorter name is a character of the longer one
    have hp := at_ (hostname base n).length (by omega)
    rw [List.getElem?_append_right (Nat.le_refl _), Nat.sub_self, List.getElem?_append_left (by omega)] at hp
    have hp : (hostname base m)[(hostname base n).length]? = some 0x2E := hp.symm
    by_cases hm : 1 < m
    · obtain ⟨b, hb1, hb, lb, hb2, -⟩ := hostname_eq base m hm h3
      rw [hb] at hp
      have hgt : b.length ≤ (hostname base n).length := by
        by_cases hn : 1 < n
        · obtain ⟨a, ha1, ha, la, ha2, ha3⟩ := hostname_eq base n hn h2
          have : base.length + 1 + (decimal n).length ≤ 254 := by
            apply Decidable.byContradiction
            intro h
            have := ha3 (by omega)
            have : (hostname base n).length = 254 := by rw [ha]; simp; omega
            omega
          rw [ha, ha2 this]
          have := hb1.length_le
          simp
          omega
        · have hb := hr (.inl (by omega))
          rw [hostname_plain base (by omega : n ≤ 1)]
          have := hb1.length_le
          simp
          omega
      rw [List.getElem?_append_right hgt] at hp
      have hm : (0x2E : UInt8) ∈ 0x2D :: decimal m := List.mem_of_getElem? hp
      rcases List.mem_cons.mp hm with h | h
      · cases h
      · have := (isDigit_iff _).1 (decimal_isDigit m _ h)
        simp at this
    · have hn : 1 < n := by omega
      have hb := hr (.inr (by omega))
      have d10 := decimal_length n 10 (by omega) (by omega)
      obtain ⟨a, -, ha, -, hs⟩ := C48_suffix base n hn h2
      rw [ha, hs (by omega), hostname_plain base (by omega : m ≤ 1)] at hle
      simp at hle
      omega

theorem host_apart' {base : Bytes} {n m : Nat} (ho : Other n m) (hr : Roomy base n m) {u v : Bytes} :
    cut (hostname base n ++ 0x2E :: u) ≠ cut (hostname base m ++ 0x2E :: v) := by
  rcases Nat.le_total (hostname base n).length (hostname base m).length with h | h
  · exact host_apart ho hr h
  · exact (host_apart ⟨ho.1.symm, ho.2.1.symm, ho.2.2.2, ho.2.2.1⟩ (fun h => hr h.symm) h).symm

/-- A name that a file asks for is fixed by it or begins with the name of the host. -/
theorem Asks.own {host : Bytes} {s : SRec} {name : Bytes} {t : Nat} (h : Asks host s name t) :
    (∃ t, ∀ host', Asks host' s name t) ∨ ∃ u, name = cut (host ++ 0x2E :: u) := by
  cases h with
  | enum => exact .inl ⟨12, fun _ => .enum⟩
  | browse => exact .inl ⟨12, fun _ => .browse⟩
  | service =>
    cases hn : s.name with
    | none =>
      refine .inr ⟨s.typeOf ++ dotLocal, ?_⟩
      simp [SRec.nameOf, hn, instanceName]
    | some c =>
      refine .inl ⟨33, fun host' => ?_⟩
      have : s.nameOf host = s.nameOf host' := by simp [SRec.nameOf, hn]
      rw [this]
      exact .service
  | text =>
    cases hn : s.name with
    | none =>
      refine .inr ⟨s.typeOf ++ dotLocal, ?_⟩
      simp [SRec.nameOf, hn, instanceName]
    | some c =>
      refine .inl ⟨16, fun host' => ?_⟩
      have : s.nameOf host = s.nameOf host' := by simp [SRec.nameOf, hn]
      rw [this]
      exact .text
  | v4 =>
    cases hn : s.target with
    | none => exact .inr ⟨dotLocal.tail, by simp [hostOf, hn]⟩
    | some c =>
      refine .inl ⟨1, fun host' => ?_⟩
      have : hostOf host s = hostOf host' s := by simp [hostOf, hn]
      rw [this]
      exact .v4
  | v6 =>
    cases hn : s.target with
    | none => exact .inr ⟨dotLocal.tail, by simp [hostOf, hn]⟩
    | some c =>
      refine .inl ⟨1, fun host' => ?_⟩
      have : hostOf host s = hostOf host' s := by simp [hostOf, hn]
      rw [this]
      exact .v4
  | alias h => exact .inl ⟨5, fun _ => .alias h⟩

/-- C102: what is asked for with one number and with another one is fixed by the files. -/
theorem names_apart {base : Bytes} {n m : Nat} (ho : Other n m) (hr : Roomy base n m) {ss : List SRec} {name : Bytes}
    {t t' : Nat} (h : Wanted (hostname base n) ss name t) (h' : Wanted (hostname base m) ss name t') : Fixed ss name := by
  obtain ⟨s, ms, h⟩ := h
  obtain ⟨s', ms', h'⟩ := h'
  rcases h.own with ⟨t, h⟩ | ⟨u, e⟩
  · exact ⟨s, ms, t, h⟩
  · rcases h'.own with ⟨t, h'⟩ | ⟨v, e'⟩
    · exact ⟨s', ms', t, h'⟩
    · exact absurd (e.symm.trans e') (host_apart' ho hr)

/-- **C102 (partial).** The daemon has read its configuration with the number `n`, and after a conflict again with the number `m`.
Whatever it then receives and sends: it has no record, and says nothing in a response, under a name it had with the
number `n`; and a packet whose answers are all under such names is no conflict any more: no record is
given up because of it.  Except for the names that the files fix, see `C102_named_counterexample`. -/
theorem C102_settled_partial {env : Env} {d d' d'' : D Ptrs} (h : Reach env d) {cb : Nat} {base : Bytes} {n m : Nat}
    {addrs : Nat → Option (List Ip4 × List Ip6)} {p : Source} (hp : p.Readable)
    (ho : Other n m) (hr : Roomy base n m)
    (e : reload cb base m addrs p d = .ok ((), d')) {hs : List Call} (c : Calls env d' hs d'')
    (st : ∀ k ∈ hs, k.1.ofStep = true) {old : Bytes} {t : Nat} (hw : Wanted (hostname base n) p.services old t)
    (hf : ¬ Fixed p.services old) :
    (∀ r x, d''.c.recs r = some x → x.rr.name ≠ old) ∧
    (∀ q to, (q, to) ∈ packetsOf hs → q.qr = true → ∀ en ∈ entries q.ops, en.name ≠ old) ∧
    ∀ now msg src a d3, (∀ r ∈ msg.an, r.WF) → Mdns.step env (.recv now msg src) d'' = .ok (a, d3) →
      (∀ r ∈ msg.an, r.name = old) → ∀ r, conflictsOf r d3.c.log = conflictsOf r d''.c.log ∧ d3.c.recs r = d''.c.recs r := by
  obtain ⟨d1, hs1, e1, cs, _, hwant, _⟩ := C77_reload_partial h cb base m addrs p hp
  rw [e] at e1
  cases e1
  have hr' := cs.reach h
  have nm : Bounded.Named d'.c d''.c := by
    refine c.induct (P := fun _ c _ => Bounded.Named d'.c c) hr' (.refl _) ?_
    rintro h1 c l o1 a1 c' l' ⟨h2, eh⟩ ih hi hu _ hdid _
    have ho : o1.ofStep = true := st (o1, a1) (by rw [eh]; simp)
    refine ih.trans (Bounded.run_named (hdid.run hi hu) fun r hn => ?_)
    cases o1 <;> simp [Op.ofStep] at ho <;> simp [Op.may, recvLab, sendLab] at hn
  have gone : ∀ r x, d''.c.recs r = some x → x.rr.name ≠ old := by
    rintro r x hx rfl
    obtain ⟨y, hy, e1, e2⟩ := nm r x hx
    have := hwant r y hy
    rw [e1] at this
    exact hf (names_apart ho hr hw this)
  refine ⟨gone, fun q to hm hq en hen hn => ?_, fun now msg src a d3 wf es hans r => ?_⟩
  · have := C77_said h hp e c st hm hq en hen
    rw [hn] at this
    exact hf (names_apart ho hr hw this)
  · have hd := (c.reach hr').did (o := .recv now msg src) wf es
    cases hd with
    | recv wf n =>
      rcases Lasting.recv_fate n wf r with h1 | ⟨_, _, x, hx, h1⟩
      · exact h1
      · exfalso
        rcases h1 with ⟨_, _, q, mq, ha, _, b, mb, hb, _⟩ | ⟨_, b, mb, _, _, hb⟩
        · exact gone r x hx (ha.2.1.trans (hb.symm.trans (hans b mb)))
        · refine gone r x hx (Eq.trans ?_ (hans b mb))
          unfold carries at hb
          simp only [Bool.and_eq_true] at hb
          exact eq_of_beq hb.1.1

/-! ### The hypotheses can be met -/

namespace Sample

open Mdns.Sample

/-- One file, in which the service has a name. -/
def named : Source := .files [some fileWeb]

/-- One file, in which it has none. -/
def unnamed : Source := .files [some fileSsh]

theorem named_readable : named.Readable := by
  intro f m
  simp at m
  subst m
  exact ⟨_, parse_web⟩

theorem unnamed_readable : unnamed.Readable := by
  intro f m
  simp at m
  subst m
  exact ⟨_, parse_ssh⟩

theorem unnamed_services : unnamed.services = [ssh] := by
  show services _ = _
  simp [services, parse_ssh]

/-- The context after the configuration was read with the number. -/
def numbered (p : Source) (n : Nat) (d : D Ptrs) : D Ptrs :=
  match reload 0 nas n (fun _ => some ([ipA], [])) p d with
  | .ok (_, d) => d
  | _ => fresh

theorem numbered_eq {p : Source} (hp : p.Readable) {d : D Ptrs} (h : Reach quiet d) (n : Nat) :
    reload 0 nas n (fun _ => some ([ipA], [])) p d = .ok ((), numbered p n d) ∧ Reach quiet (numbered p n d) := by
  obtain ⟨d', hs, e, cs, _⟩ := C77_reload_partial h 0 nas n (fun _ => some ([ipA], [])) p hp
  have : numbered p n d = d' := by unfold numbered; rw [e]
  rw [this]
  exact ⟨e, cs.reach h⟩

/-- Another host announces the TXT record of its service of this name. -/
def rivalTxt (name : Bytes) : Msg :=
  { id := 0, header := { qr := true }, qd := [], an := [⟨name, 16, 1, 4500, [0], .none⟩], ns := [], ar := [] }

/-- The service of the file without a name, with the number. -/
def sshName (n : Nat) : Bytes := instanceName (hostname nas n) ssh.typeOf

/-- The host, after the other one was heard. -/
def clashed : D Ptrs := (trace quiet [.recv (at_ 100) (rivalTxt (sshName 1)) other] (numbered unnamed 1 fresh)).2

/-- C102: the other host has `nas._ssh._tcp.local.`; this is a conflict; after that the host is `nas-2`. -/
example : Reach quiet clashed ∧ unnamed.Readable ∧ Other 1 2 ∧ Roomy nas 1 2 ∧
    conflictsOf 6 clashed.c.log = 1 ∧ clashed.c.recs 6 = none ∧
    (∃ d', reload 0 nas 2 (fun _ => some ([ipA], [])) unnamed clashed = .ok ((), d') ∧
      ∃ r x, d'.c.recs r = some x ∧ x.rr.name = sshName 2) ∧
    Wanted (hostname nas 1) unnamed.services (sshName 1) 16 ∧ ¬ Fixed unnamed.services (sshName 1) := by
  have h0 := numbered_eq unnamed_readable fresh_reach 1
  have h1 : Reach quiet clashed := by
    obtain ⟨a, e⟩ := step_of h0.2 (o := .recv (at_ 100) (rivalTxt (sshName 1)) other)
      (opSafeB_sound quiet_keeps (by decide +kernel))
    exact h0.2.step (opSafeB_sound quiet_keeps (by decide +kernel)) e
  have h2 := numbered_eq unnamed_readable h1 2
  refine ⟨h1, unnamed_readable, ⟨by decide, by decide, by decide, by decide⟩, fun _ => by decide, by decide +kernel, by decide +kernel, ⟨_, h2.1, ?_⟩, ?_, ?_⟩
  · have hb : ∃ r ∈ List.range (numbered unnamed 2 clashed).lists.size,
        (((numbered unnamed 2 clashed).c.recs r).any fun x => decide (x.rr.name = sshName 2)) = true := by decide +kernel
    obtain ⟨r, _, hr⟩ := hb
    obtain ⟨x, hx, h2⟩ := (Option.any_eq_true _ _).mp hr
    exact ⟨r, x, hx, of_decide_eq_true h2⟩
  · rw [unnamed_services]
    exact ⟨ssh, by simp, .text⟩
  · rw [unnamed_services]
    rintro ⟨s, m, t, h⟩
    simp only [List.mem_singleton] at m
    subst m
    replace h := h []
    generalize hg : sshName 1 = k at h
    revert hg
    cases h with
    | enum => decide +kernel
    | browse => decide +kernel
    | service => decide +kernel
    | text => decide +kernel
    | v4 => decide +kernel
    | v6 => decide +kernel
    | alias h' => cases h'

/-- `c._http._tcp.local.` -/
def webName : Bytes := instanceName [0x63] httpTcp

/-- How often a conflict about this name was reported. -/
def clashes (name : Bytes) (d : D Ptrs) : Nat :=
  d.c.log.countP fun e => match e with
    | .conflict _ n _ => n == name
    | _ => false

/-- One round: the configuration is read with the number, and the other host heard. -/
def roundOf (n : Nat) (d : D Ptrs) : D Ptrs :=
  (trace quiet [.recv (at_ 100) (rivalTxt webName) other] (numbered named n d)).2

end Sample

/-! ### Counterexample -/

open Sample Mdns.Sample

/-- C102: another host has a service of the same name, which the service file gives.  The conflict is reported, the configuration is
read again with the next number, and the same packet is the same conflict again (`src/conf.c:200-201`: only the host name gets a number). -/
theorem C102_named_counterexample : ∃ d0 d1 d2 d3 a b, Reach quiet d0 ∧
    Mdns.step quiet (.recv (at_ 100) (rivalTxt webName) other) d0 = .ok (a, d1) ∧ clashes webName d0 = 0 ∧ clashes webName d1 = 1 ∧
    reload 0 nas 2 (fun _ => some ([ipA], [])) named d1 = .ok ((), d2) ∧
    Mdns.step quiet (.recv (at_ 100) (rivalTxt webName) other) d2 = .ok (b, d3) ∧ clashes webName d2 = 1 ∧ clashes webName d3 = 2 := by
  have h0 := numbered_eq named_readable fresh_reach 1
  obtain ⟨a, e1⟩ := step_of h0.2 (o := .recv (at_ 100) (rivalTxt webName) other) (opSafeB_sound quiet_keeps (by decide +kernel))
  have h1 : Reach quiet (roundOf 1 fresh) := h0.2.step (opSafeB_sound quiet_keeps (by decide +kernel)) e1
  have h2 := numbered_eq named_readable h1 2
  obtain ⟨b, e2⟩ := step_of h2.2 (o := .recv (at_ 100) (rivalTxt webName) other) (opSafeB_sound quiet_keeps (by decide +kernel))
  exact ⟨numbered named 1 fresh, roundOf 1 fresh, numbered named 2 (roundOf 1 fresh), roundOf 2 (roundOf 1 fresh), a, b, h0.2, e1,
    by decide +kernel, by decide +kernel, h2.1, e2, by decide +kernel, by decide +kernel⟩

end Mdns.Conf
