import Verif.Lemmas.Ops

/-!
# What setting the addresses of a host does
-/

namespace Mdns

open M

/-- Does a record hold an address of a host? -/
def Core.isAddr (c : Core) (host : Bytes) (type : Nat) (want : Ip) (r : Nat) : Bool :=
  match c.recs r with
  | some x => decide (x.rr.type = type ∧ x.rr.name = host ∧ x.rr.addrOf type = want)
  | none => false

theorem hasAddr_ok {c : Core} {l : Lists} {host : Bytes} {type : Nat} {want : Ip} : ∀ (rs : List Nat),
    (∀ r ∈ rs, ∃ x, c.recs r = some x) →
    hasAddr host type want rs ⟨c, l⟩ = .ok (rs.any (c.isAddr host type want), ⟨c, l⟩)
  | [], _ => rfl
  | r :: rs, h => by
    obtain ⟨x, hx⟩ := h r (by simp)
    have hi : c.isAddr host type want r = decide (x.rr.type = type ∧ x.rr.name = host ∧ x.rr.addrOf type = want) := by
      simp only [Core.isAddr, hx]
    unfold hasAddr
    rw [M.bind_ok (getRec_ok hx), List.any_cons, hi]
    split
    · rename_i hh
      simp only [hh, and_self, decide_true, Bool.true_or]
      rfl
    · rename_i hh
      rw [hasAddr_ok rs fun r' m => h r' (by simp [m])]
      simp only [hh, decide_false, Bool.false_or]

/-- A record with another address. -/
def Rec.withAddr (x : Rec) : Ip → Rec
  | .v4 a => { x with rr := { x.rr with ip := a } }
  | .v6 a => { x with rr := { x.rr with ip6 := a } }

theorem Rec.withAddr_role (x : Rec) (a : Ip) : SameRole x (x.withAddr a) := by
  cases a <;> exact ⟨rfl, rfl, rfl, rfl, rfl, rfl⟩

theorem setAddr_ok {c : Core} {l : Lists} (h : RInv c l) {r : Nat} {x : Rec} (hx : c.recs r = some x) (a : Ip) :
    setAddr r a ⟨c, l⟩ = .ok ((), setSt c l r (x.withAddr a)) := by
  cases a with
  | v4 a => exact setIp_ok h hx a
  | v6 a => exact setIpv6_ok h hx a

/-- The state after a new address record. -/
def addrSt (c : Core) (l : Lists) (host : Bytes) (type ttl : Nat) (want : Ip) : D Lists :=
  setSt (c.publishRec l.size (sharedRec host type ttl)) (l.fresh false) l.size
    ((sharedRec host type ttl).withAddr want)

/-- The steps of the adding loop. -/
inductive AddA (host : Bytes) (type ttl : Nat) : List Ip → Core → Lists → Core → Lists → Prop
  | nil {c : Core} {l : Lists} (h : DInv c l) : AddA host type ttl [] c l c l
  | there {want : Ip} {wants : List Ip} {c c' : Core} {l l' : Lists} (h : DInv c l) {r : Nat}
      (hr : c.isAddr host type want r = true) (n : AddA host type ttl wants c l c' l') :
      AddA host type ttl (want :: wants) c l c' l'
  | new {want : Ip} {wants : List Ip} {c c' : Core} {l l' : Lists} (h : DInv c l)
      (hr : ∀ r, c.isAddr host type want r = false)
      (n : AddA host type ttl wants (addrSt c l host type ttl want).c (addrSt c l host type ttl want).q c' l') :
      AddA host type ttl (want :: wants) c l c' l'

theorem AddA.inv {host : Bytes} {type ttl : Nat} {wants : List Ip} {c c' : Core} {l l' : Lists}
    (n : AddA host type ttl wants c l c' l') : DInv c' l' := by
  induction n with
  | nil h => exact h
  | there _ _ _ ih => exact ih
  | new _ _ _ ih => exact ih

theorem addrSt_inv {c : Core} {l : Lists} (h : DInv c l) (host : Bytes) (type ttl : Nat) (want : Ip) :
    DInv (addrSt c l host type ttl want).c (addrSt c l host type ttl want).q :=
  setSt_inv (shared_inv h host type ttl) (upd_same ..) (Rec.withAddr_role _ want)

theorem addAddrs_ok {host : Bytes} {type ttl : Nat} : ∀ (wants : List Ip) {c : Core} {l : Lists}, DInv c l →
    ∃ c' l', addAddrs host type ttl wants ⟨c, l⟩ = .ok ((), ⟨c', l'⟩) ∧ AddA host type ttl wants c l c' l'
  | [], c, l, h => ⟨c, l, rfl, .nil h⟩
  | want :: wants, c, l, h => by
    unfold addAddrs
    rw [M.bind_ok core_ok, M.bind_ok (hasAddr_ok _ (h.rinv.pubrec _))]
    cases hf : (c.published (bucket host sprime)).any (c.isAddr host type want) with
    | true =>
      obtain ⟨r, _, hr⟩ := List.any_eq_true.mp hf
      obtain ⟨c', l', e, n⟩ := addAddrs_ok (host := host) (type := type) (ttl := ttl) wants h
      exact ⟨c', l', e, .there h hr n⟩
    | false =>
      have hr : ∀ r, c.isAddr host type want r = false := by
        intro r
        cases hh : c.isAddr host type want r with
        | false => rfl
        | true =>
          have hh' := hh
          unfold Core.isAddr at hh'
          split at hh'
          · rename_i x hx
            have hn := (of_decide_eq_true hh').2.1
            have hm := h.rinv.mem r x hx
            rw [hn] at hm
            rw [List.any_eq_false] at hf
            exact absurd hh (hf r hm)
          · cases hh'
      have hi := shared_inv h host type ttl
      obtain ⟨c', l', e, n⟩ := addAddrs_ok (host := host) (type := type) (ttl := ttl) wants (addrSt_inv h host type ttl want)
      refine ⟨c', l', ?_, .new h hr n⟩
      refine (M.bind_ok (shared_ok host type ttl)).trans ?_
      refine (M.bind_ok (setAddr_ok hi.rinv (upd_same ..) want)).trans ?_
      exact e

/-- The steps of the removing loop. -/
inductive DropA (host : Bytes) (type : Nat) (want : List Ip) : List Nat → Core → Lists → Core → Lists → Prop
  | nil {c : Core} {l : Lists} (h : DInv c l) : DropA host type want [] c l c l
  | keep {r : Nat} {rs : List Nat} {c c' : Core} {l l' : Lists} {x : Rec} (h : DInv c l) (hx : c.recs r = some x)
      (hk : ¬ (x.rr.type = type ∧ x.rr.name = host ∧ x.rr.addrOf type ∉ want)) (n : DropA host type want rs c l c' l') :
      DropA host type want (r :: rs) c l c' l'
  | drop {r : Nat} {rs : List Nat} {c c' : Core} {l l' : Lists} {x : Rec} (h : DInv c l) (hx : c.recs r = some x)
      (hk : x.rr.type = type ∧ x.rr.name = host ∧ x.rr.addrOf type ∉ want)
      (n : DropA host type want rs (doneSt c l r x).c (doneSt c l r x).q c' l') :
      DropA host type want (r :: rs) c l c' l'

theorem DropA.inv {host : Bytes} {type : Nat} {want : List Ip} {rs : List Nat} {c c' : Core} {l l' : Lists}
    (n : DropA host type want rs c l c' l') : DInv c' l' := by
  induction n with
  | nil h => exact h
  | keep _ _ _ _ ih => exact ih
  | drop _ _ _ _ ih => exact ih

theorem doneSt_published {c : Core} {l : Lists} {r : Nat} {x : Rec} {pre suf : List Nat} {i : Nat}
    (hb : bucket x.rr.name sprime = i) (hp : c.published i = pre ++ r :: suf) (hn : r ∉ pre) :
    ∃ pre', (doneSt c l r x).c.published i = pre' ++ suf := by
  unfold doneSt
  split
  · refine ⟨pre, ?_⟩
    unfold Core.dropRec
    simp only
    rw [hb, upd_same, hp, erase_split hn]
  · rw [sendSt_published]
    exact ⟨pre ++ [r], by rw [hp]; simp⟩

theorem dropAddrs_ok {host : Bytes} {type : Nat} {want : List Ip} {i : Nat} : ∀ (rs : List Nat) (fuel : Nat) {c : Core}
    {l : Lists}, DInv c l → (∃ pre, c.published i = pre ++ rs) → rs.length ≤ fuel →
    ∃ c' l', dropAddrs host type want fuel rs.head? ⟨c, l⟩ = .ok ((), ⟨c', l'⟩) ∧ DropA host type want rs c l c' l'
  | [], fuel, c, l, h, _, _ => ⟨c, l, by unfold dropAddrs; rfl, .nil h⟩
  | r :: rs, fuel + 1, c, l, h, ⟨pre, hp⟩, hf => by
    have hf : rs.length ≤ fuel := by simpa using hf
    obtain ⟨x, hx, hb⟩ := h.rinv.pub i r (by rw [hp]; simp)
    have hnd := h.rinv.pnodup i
    rw [hp] at hnd
    have nd1 := (split_nodup hnd).1
    rw [List.head?_cons]
    unfold dropAddrs rBehind
    have e1 : (do
        let x ← getRec r
        let c ← core
        pure (behind r (c.published (bucket x.rr.name sprime))) : M Lists (List Nat)) ⟨c, l⟩ = .ok (rs, ⟨c, l⟩) := by
      rw [M.bind_ok (getRec_ok hx), M.bind_ok core_ok, hb, hp, behind_split nd1]
      rfl
    rw [M.bind_ok e1, M.bind_ok (getRec_ok hx)]
    by_cases hk : x.rr.type = type ∧ x.rr.name = host ∧ x.rr.addrOf type ∉ want
    · rw [if_pos hk]
      obtain ⟨pre', hp'⟩ := doneSt_published (l := l) hb hp nd1
      obtain ⟨c', l', e, n⟩ := dropAddrs_ok (host := host) (type := type) (want := want) (i := i) rs fuel
        (doneSt_inv h hx) ⟨pre', hp'⟩ hf
      refine ⟨c', l', ?_, .drop h hx hk n⟩
      exact (M.bind_ok (done_ok h.rinv hx)).trans e
    · rw [if_neg hk]
      obtain ⟨c', l', e, n⟩ := dropAddrs_ok (host := host) (type := type) (want := want) (i := i) rs fuel
        h ⟨pre ++ [r], by rw [hp]; simp⟩ hf
      exact ⟨c', l', e, .keep h hx hk n⟩

/-- Does `mdnsd_find` accept a record? -/
def Core.isNamed (c : Core) (name : Bytes) (type : Nat) (r : Nat) : Bool :=
  match c.recs r with
  | some x => decide (x.rr.type = type ∧ x.rr.name = name)
  | none => false

theorem find_go_ok {Q : Type} [QOps Q] {c : Core} {l : Q} {name : Bytes} {type : Nat} : ∀ (rs : List Nat),
    (∀ r ∈ rs, ∃ x, c.recs r = some x) →
    find.go name type rs ⟨c, l⟩ = .ok ((rs.filter (c.isNamed name type)).head?, ⟨c, l⟩)
  | [], _ => rfl
  | r :: rs, h => by
    obtain ⟨x, hx⟩ := h r (by simp)
    have hi : c.isNamed name type r = decide (x.rr.type = type ∧ x.rr.name = name) := by
      simp only [Core.isNamed, hx]
    unfold find.go
    rw [M.bind_ok (getRec_ok hx), List.filter_cons, hi]
    split
    · rename_i hh
      rw [if_pos (decide_eq_true hh)]
      rfl
    · rename_i hh
      rw [if_neg (by simpa using hh)]
      exact find_go_ok rs fun r' m => h r' (by simp [m])

theorem find_ok {c : Core} {l : Lists} (h : RInv c l) (name : Bytes) (type : Nat) : find name type ⟨c, l⟩ =
    .ok (((c.published (bucket name sprime)).filter (c.isNamed name type)).head?, ⟨c, l⟩) := by
  unfold find
  rw [M.bind_ok core_ok]
  exact find_go_ok _ (h.pubrec _)

/-- What setting the addresses does: a time to live is chosen, the missing addresses are
added, the others dropped. -/
inductive UpdA (host : Bytes) (type : Nat) (want : List Ip) (c : Core) (l : Lists) (c' : Core) (l' : Lists) : Prop
  | mk {ttl : Nat} {c1 : Core} {l1 : Lists} (h : DInv c l) (ht : ttl ≠ 0) (a : AddA host type ttl want c l c1 l1)
      (d : DropA host type want (c1.published (bucket host sprime)) c1 l1 c' l') : UpdA host type want c l c' l'

theorem UpdA.inv {host : Bytes} {type : Nat} {want : List Ip} {c c' : Core} {l l' : Lists}
    (n : UpdA host type want c l c' l') : DInv c' l' := by
  obtain ⟨_, _, _, d⟩ := n
  exact d.inv

theorem updateAddrs_ok {host : Bytes} {type : Nat} {want : List Ip} {c : Core} {l : Lists} (h : DInv c l) :
    ∃ c' l', updateAddrs host type want ⟨c, l⟩ = .ok ((), ⟨c', l'⟩) ∧ UpdA host type want c l c' l' := by
  have key : ∀ ttl, ttl ≠ 0 → ∃ c' l', (do
      addAddrs host type ttl want
      let c ← core
      let l := c.published (bucket host sprime)
      dropAddrs host type want l.length l.head? : M Lists Unit) ⟨c, l⟩ = .ok ((), ⟨c', l'⟩) ∧
      UpdA host type want c l c' l' := by
    intro ttl ht
    obtain ⟨c1, l1, e1, n1⟩ := addAddrs_ok (host := host) (type := type) (ttl := ttl) want h
    obtain ⟨c', l', e, n⟩ := dropAddrs_ok (host := host) (type := type) (want := want) (i := bucket host sprime)
      (c1.published (bucket host sprime)) _ n1.inv ⟨[], rfl⟩ (Nat.le_refl _)
    refine ⟨c', l', ?_, .mk h ht n1 n⟩
    rw [M.bind_ok e1, M.bind_ok core_ok]
    exact e
  unfold updateAddrs
  rw [M.bind_ok (find_ok h.rinv _ _)]
  cases hf : ((c.published (bucket host sprime)).filter (c.isNamed host type)).head? with
  | none => exact key 120 (by decide)
  | some r =>
    have hr : r ∈ c.published (bucket host sprime) := (List.mem_filter.mp (List.mem_of_head? hf)).1
    obtain ⟨x, hx⟩ := h.rinv.pubrec _ r hr
    dsimp only
    rw [M.bind_ok (getRec_ok hx)]
    refine key _ ?_
    split
    · assumption
    · decide

/-- All hosts of an interface. -/
inductive IfA (v4 : List Ip4) (v6 : List Ip6) : List Bytes → Core → Lists → Core → Lists → Prop
  | nil {c : Core} {l : Lists} (h : DInv c l) : IfA v4 v6 [] c l c l
  | cons {host : Bytes} {hosts : List Bytes} {c c1 c2 c' : Core} {l l1 l2 l' : Lists}
      (a : UpdA host 1 (v4.map Ip.v4) c l c1 l1) (b : UpdA host 28 (v6.map Ip.v6) c1 l1 c2 l2)
      (n : IfA v4 v6 hosts c2 l2 c' l') : IfA v4 v6 (host :: hosts) c l c' l'

theorem IfA.inv {v4 : List Ip4} {v6 : List Ip6} {hosts : List Bytes} {c c' : Core} {l l' : Lists}
    (n : IfA v4 v6 hosts c l c' l') : DInv c' l' := by
  induction n with
  | nil h => exact h
  | cons _ _ _ ih => exact ih

theorem setInterface_go_ok {v4 : List Ip4} {v6 : List Ip6} : ∀ (hosts : List Bytes) {c : Core} {l : Lists}, DInv c l →
    ∃ c' l', setInterfaceAddresses.go v4 v6 hosts ⟨c, l⟩ = .ok ((), ⟨c', l'⟩) ∧ IfA v4 v6 hosts c l c' l'
  | [], c, l, h => ⟨c, l, rfl, .nil h⟩
  | host :: hosts, c, l, h => by
    obtain ⟨c1, l1, e1, n1⟩ := updateAddrs_ok (host := host) (type := 1) (want := v4.map Ip.v4) h
    obtain ⟨c2, l2, e2, n2⟩ := updateAddrs_ok (host := host) (type := 28) (want := v6.map Ip.v6) n1.inv
    obtain ⟨c', l', e, n⟩ := setInterface_go_ok (v4 := v4) (v6 := v6) hosts n2.inv
    refine ⟨c', l', ?_, .cons n1 n2 n⟩
    unfold setInterfaceAddresses.go
    exact (M.bind_ok e1).trans ((M.bind_ok e2).trans e)

/-- The names of the address records. -/
def Core.hostsOf (c : Core) : List Nat → List Bytes → List Bytes
  | [], acc => acc
  | r :: rs, acc =>
    match c.recs r with
    | none => c.hostsOf rs acc
    | some x =>
      if (x.rr.type = 1 ∨ x.rr.type = 28) ∧ x.rr.name ∉ acc then c.hostsOf rs (acc ++ [x.rr.name])
      else c.hostsOf rs acc

theorem hostNames_ok {c : Core} {l : Lists} : ∀ (rs : List Nat) (acc : List Bytes),
    (∀ r ∈ rs, ∃ x, c.recs r = some x) → hostNames rs acc ⟨c, l⟩ = .ok (c.hostsOf rs acc, ⟨c, l⟩)
  | [], _, _ => rfl
  | r :: rs, acc, h => by
    obtain ⟨x, hx⟩ := h r (by simp)
    unfold hostNames Core.hostsOf
    rw [M.bind_ok (getRec_ok hx), hx]
    dsimp only
    split
    · exact hostNames_ok rs _ fun r' m => h r' (by simp [m])
    · exact hostNames_ok rs _ fun r' m => h r' (by simp [m])

theorem RInv.allrec {c : Core} {l : Lists} (h : RInv c l) : ∀ r ∈ c.allPublished, ∃ x, c.recs r = some x := by
  intro r m
  obtain ⟨i, _, hr⟩ := List.mem_flatMap.mp m
  exact h.pubrec i r hr

theorem setInterface_ok {v4 : List Ip4} {v6 : List Ip6} {c : Core} {l : Lists} (h : DInv c l) :
    ∃ c' l', setInterfaceAddresses v4 v6 ⟨c, l⟩ = .ok ((), ⟨c', l'⟩) ∧
      IfA v4 v6 (c.hostsOf c.allPublished []) c l c' l' := by
  obtain ⟨c', l', e, n⟩ := setInterface_go_ok (v4 := v4) (v6 := v6) (c.hostsOf c.allPublished []) h
  refine ⟨c', l', ?_, n⟩
  unfold setInterfaceAddresses
  rw [M.bind_ok core_ok, M.bind_ok (hostNames_ok _ _ h.rinv.allrec)]
  exact e

end Mdns
