import Verif.Props.Receiving
import Verif.Props.Questions

/-!
# C92: a record lasts until it is given up
-/

namespace Mdns

/-! ### Specification -/

/-- The calls by which a program changes or withdraws the record `r` with the contents `a`: those for the record itself, those
that set the addresses of hosts if it is an address that is not wanted any more, and those for all records. -/
def Op.disturbs (r : Nat) (a : Answer) : Op → Bool
  | .done s => s == r
  | .setRaw s _ => s == r
  | .setHost s _ => s == r
  | .setIp s _ => s == r
  | .setIpv6 s _ => s == r
  | .setSrv s _ _ _ _ => s == r
  | .setAddress _ => a.type == 1
  | .setIpv6Address _ => a.type == 28
  | .setAddresses host ips => a.type == 1 && a.name == host && !ips.contains a.ip
  | .setIpv6Addresses host ips => a.type == 28 && a.name == host && !ips.contains a.ip6
  | .setInterface ips ip6s => a.type == 1 && !ips.contains a.ip || a.type == 28 && !ip6s.contains a.ip6
  | .shutdown => true
  | .clear => true
  | _ => false

/-! ### Conflicts in the log -/

namespace Lasting

theorem conflictsOf_log {r : Nat} {a b : List Event} : conflictsOf r (a ++ b) = conflictsOf r a + conflictsOf r b :=
  conflictsOf_append ..

theorem qDone_conf {c c' : Core} {q r : Nat} (e : c.qDone q = .ok c') : conflictsOf r c'.log = conflictsOf r c.log := by
  unfold Core.qDone at e
  split at e
  · cases e
  · dsimp only at e
    split at e
    · cases e
      dsimp only
      rw [conflictsOf_append]
      rfl
    · cases e

theorem query_conf {c c' : Core} {host : Bytes} {type r : Nat} {a : Option Nat} (e : c.query host type a = .ok c') :
    conflictsOf r c'.log = conflictsOf r c.log := by
  unfold Core.query at e
  split at e
  · split at e
    · exact qDone_conf e
    · split at e
      · cases e
      · cases e
        dsimp only
        rw [conflictsOf_append]
        rfl
  · split at e
    · cases e
      rfl
    · dsimp only at e
      split at e
      · rename_i c2 h2
        split at e
        · cases e
        · cases e
          unfold Core.qReset at h2
          split at h2
          · cases h2
          · cases h2
            dsimp only
            rw [conflictsOf_append]
            rfl
      · cases e
      · cases e
  · cases e
  · cases e

theorem register_conf {r : Nat} : ∀ {l : List (Bytes × Nat × Nat)} {c c' : Core}, c.register l = .ok c' →
    conflictsOf r c'.log = conflictsOf r c.log
  | [], c, c', e => by cases e; rfl
  | (host, type, cb) :: rest, c, c', e => by
    unfold Core.register at e
    split at e
    · rename_i h
      exact (register_conf e).trans (query_conf h)
    · cases e
    · cases e

theorem callAnswer_conf {env : Env} {c c' : Core} {q r : Nat} {rr : Answer} {b : Bool} (e : c.callAnswer env q rr = .ok (b, c')) :
    conflictsOf r c'.log = conflictsOf r c.log := by
  unfold Core.callAnswer at e
  split at e
  · cases e
  · dsimp only at e
    split at e
    · rename_i h
      cases e
      rw [register_conf h]
      dsimp only
      rw [conflictsOf_append]
      rfl
    · cases e
    · cases e

theorem qAnswer_conf {env : Env} {c c' : Core} {en : Cached} {r : Nat} (e : c.qAnswer env en = .ok c') :
    conflictsOf r c'.log = conflictsOf r c.log := by
  unfold Core.qAnswer at e
  split at e
  · cases e; rfl
  · split at e
    · rename_i h
      split at e
      · exact (qDone_conf e).trans (callAnswer_conf h)
      · cases e
        exact callAnswer_conf h
    · cases e
    · cases e

theorem cExpireF_conf {env : Env} {i r : Nat} : ∀ (fuel : Nat) {k : Nat} {c c' : Core}, Core.cExpireF env i fuel k c = .ok c' →
    conflictsOf r c'.log = conflictsOf r c.log
  | 0, _, _, _, e => by cases e
  | fuel + 1, k, c, c', e => by
    unfold Core.cExpireF at e
    split at e
    · cases e; rfl
    · split at e
      · split at e
        · rename_i h
          have h := qAnswer_conf (r := r) h
          exact (cExpireF_conf fuel e).trans h
        · cases e
        · cases e
      · exact cExpireF_conf fuel e

theorem cExpire_conf {env : Env} {c c' : Core} {i r : Nat} (e : c.cExpire env i = .ok c') :
    conflictsOf r c'.log = conflictsOf r c.log := cExpireF_conf _ e

theorem deleteF_conf {env : Env} {a : Resource} {i r : Nat} : ∀ (fuel : Nat) {c c' : Core}, Core.deleteF env a i fuel c = .ok c' →
    conflictsOf r c'.log = conflictsOf r c.log
  | 0, _, _, e => by cases e
  | fuel + 1, c, c', e => by
    unfold Core.deleteF at e
    split at e
    · cases e; rfl
    · split at e
      · rename_i h
        have h := cExpire_conf (r := r) h
        exact (deleteF_conf fuel e).trans h
      · cases e
      · cases e

theorem insert_conf {env : Env} {a : Resource} {src : Addr} {c c' : Core} {r : Nat} (e : c.insert env a src = .ok c') :
    conflictsOf r c'.log = conflictsOf r c.log := by
  unfold Core.insert at e
  dsimp only at e
  split at e
  · cases e; rfl
  · split at e
    · split at e
      · cases e; rfl
      · split at e
        · rename_i h
          have h := callAnswer_conf (r := r) h
          split at e
          · split at e
            · exact (qDone_conf e).trans h
            · cases e
          · cases e
            exact h
        · cases e
        · cases e
    · cases e
    · cases e

theorem cacheIn_conf {env : Env} {a : Resource} {src : Addr} {c c' : Core} {r : Nat} (e : c.cacheIn env a src = .ok c') :
    conflictsOf r c'.log = conflictsOf r c.log := by
  unfold Core.cacheIn at e
  split at e
  · rename_i c1 h
    have h1 : conflictsOf r c1.log = conflictsOf r c.log := by
      unfold Core.flush at h
      split at h
      · have h := cExpire_conf (r := r) h
        exact h
      · cases h; rfl
    split at e
    · exact (deleteF_conf _ e).trans h1
    · exact (insert_conf e).trans h1
  · cases e
  · cases e

theorem received_conf (c : Core) (a : Resource) (r : Nat) : conflictsOf r (c.received a).log = conflictsOf r c.log := by
  unfold Core.received Core.heard
  dsimp only
  rw [conflictsOf_append]
  split <;> rfl

/-! ### Answers -/

theorem Rival.is {c : Core} {a : Resource} {r : Nat} (h : c.rival a = some r) :
    ∃ x, c.recs r = some x ∧ x.unique ≠ 0 ∧ x.modified = true ∧ aMatch a x.rr = true ∧ x.rr.is a.name a.type = true := by
  unfold Core.rival at h
  split at h
  · cases h
  · rename_i s hs
    split at h
    · cases h
    · rename_i x hx
      split at h
      · rename_i hu
        cases h
        have := (List.mem_filter.mp (List.mem_of_head? hs)).2
        unfold Core.isRec at this
        rw [hx] at this
        exact ⟨x, hx, hu.1, hu.2.1, hu.2.2, this⟩
      · cases h

/-- The record is its program's alone, was set, and the answer carries it. -/
def Rec.SameAs (x : Rec) (a : Resource) : Prop := x.unique ≠ 0 ∧ x.modified = true ∧ carries a x.rr = true

theorem answer_fate {env : Env} {src : Addr} {a : Resource} {did did' : Bool} {c c' : Core} {l l' : Lists}
    (n : InA env src a did c l did' c' l') (ha : a.WF) (h : DInv c l) (r : Nat) :
    (conflictsOf r c'.log = conflictsOf r c.log ∧ c'.recs r = c.recs r) ∨
    (conflictsOf r c'.log = conflictsOf r c.log + 1 ∧ ∃ x, c.recs r = some x ∧ Rec.SameAs x a ∧ x.Leaves (c'.recs r)) := by
  cases n with
  | cache _ e =>
    refine .inl ⟨(cacheIn_conf e).trans (received_conf ..), ?_⟩
    have := cacheIn_recs (c := c.received a) (h.cinv.received a) ha e
    exact congrFun (congrArg Core.recs this : c'.rest.recs = (c.received a).rest.recs) r
  | own _ hl =>
    obtain ⟨_, _, _, rfl, _⟩ := hl
    exact .inl ⟨rfl, rfl⟩
  | @conflict s x c1 _ hr hl hx hu e =>
    have i := done_inv h hl hx
    have hc := cacheIn_recs (c := (doneSt (c1.heard [.conflict s x.rr.name x.rr.type]) l s x).c.received a)
      (i.cinv.received a) ha e
    have hrec : c'.recs = (doneSt (c1.heard [.conflict s x.rr.name x.rr.type]) l s x).c.recs :=
      (congrArg Core.recs hc :)
    have hlog : conflictsOf r c'.log = conflictsOf r c.log + conflictsOf r [.conflict s x.rr.name x.rr.type] := by
      rw [cacheIn_conf e, received_conf, recfree_log (doneSt_recfree ..)]
      obtain ⟨_, _, _, rfl, _⟩ := hl
      exact conflictsOf_append ..
    have i0 : RInv (c1.heard [.conflict s x.rr.name x.rr.type]) l := (hl.rinv h.rinv).congr rfl rfl rfl
    obtain ⟨d1, d2⟩ := doneSt_recs i0 (r := s) (x := x) hx
    rw [hrec, hlog]
    by_cases er : r = s
    · subst er
      refine .inr ⟨by simp [conflictsOf], x, by rw [← hl.recs]; exact hx, ⟨hu.1, hu.2.1, ?_⟩, d1⟩
      obtain ⟨y, hy, _, _, _, h5⟩ := Rival.is hr
      rw [hl.recs, hy] at hx
      cases hx
      rw [← carries_eq ha]
      unfold hit
      rw [h5, hu.2.2]
      rfl
    · refine .inl ⟨by simp [conflictsOf, Ne.symm er], ?_⟩
      have : (view _ _ r).x = (view _ _ r).x := congrArg View.x (d2 r er)
      refine (this : _ = (c1.heard [.conflict s x.rr.name x.rr.type]).recs r).trans ?_
      show c1.recs r = _
      rw [hl.recs]

/-- What the answers of a packet do to a record: it stays as it is and no conflict is reported, or a conflict is reported and
one of the answers carries the record. -/
theorem answers_fate {env : Env} {src : Addr} {as : List Resource} {did : Bool} {c c' : Core} {l l' : Lists}
    (n : InAs env src as did c l c' l') (ha : ∀ a ∈ as, a.WF) (r : Nat) :
    (conflictsOf r c'.log = conflictsOf r c.log ∧ c'.recs r = c.recs r) ∨
    (conflictsOf r c.log < conflictsOf r c'.log ∧ (∀ y, c'.recs r = some y → y.rr.ttl = 0) ∧
      ∃ x, c.recs r = some x ∧ ∃ a ∈ as, Rec.SameAs x a) := by
  induction n with
  | nil => exact .inl ⟨rfl, rfl⟩
  | @cons a as _ _ c c1 c' _ _ _ i h _ ih =>
    have ih := ih fun a m => ha a (by simp [m])
    rcases answer_fate h (ha _ (by simp)) i r with ⟨h1, h2⟩ | ⟨h1, x, hx, hs, hl⟩
    · rcases ih with ⟨g1, g2⟩ | ⟨g1, g0, x, hx, b, mb, hs⟩
      · exact .inl ⟨g1.trans h1, g2.trans h2⟩
      · exact .inr ⟨by omega, g0, x, h2 ▸ hx, b, by simp [mb], hs⟩
    · refine .inr ⟨?_, ?_, x, hx, a, by simp, hs⟩
      · rcases ih with ⟨g1, _⟩ | ⟨g1, _⟩ <;> omega
      · rcases ih with ⟨_, g2⟩ | ⟨_, g2, _⟩
        · intro y hy
          rw [g2] at hy
          by_cases hp : x.Probing
          · rw [hl.1 hp] at hy
            cases hy
          · rw [hl.2 hp] at hy
            cases hy
            rfl
        · exact g2

/-- What a packet received does to a record. -/
theorem recv_fate {env : Env} {now : TV} {m : Msg} {src : Addr} {c c' : Core} {l l' : Lists} {ret : Nat}
    (n : InMsg env now m src c l ret c' l') (ha : ∀ a ∈ m.an, a.WF) (r : Nat) :
    (conflictsOf r c'.log = conflictsOf r c.log ∧ c'.recs r = c.recs r) ∨
    (conflictsOf r c.log < conflictsOf r c'.log ∧ (∀ y, c'.recs r = some y → y.rr.ttl = 0) ∧ ∃ x, c.recs r = some x ∧
      ((m.header.qr = false ∧ x.Bare ∧ Claims c.cls m x) ∨ (m.header.qr = true ∧ ∃ a ∈ m.an, Rec.SameAs x a))) := by
  cases n with
  | shutdown => exact .inl ⟨rfl, rfl⟩
  | own _ hl _ =>
    obtain ⟨_, _, _, rfl, _⟩ := hl
    exact .inl ⟨rfl, rfl⟩
  | query _ hq hl _ n =>
    obtain ⟨_, _, _, rfl, _⟩ := hl
    obtain ⟨evs, e, hev⟩ := n.log r
    have e : c'.log = c.log ++ evs := e
    rw [e, conflictsOf_append]
    cases hx : c.recs r with
    | none =>
      have h0 : c'.recs r = none := n.none (show (_ : Core).recs r = none from hx)
      have a0 : c'.alive r = 0 := by unfold Core.alive; rw [h0]; rfl
      have a1 : ({ c with now := now } : Core).alive r = 0 := by unfold Core.alive; show (if (c.recs r).isSome then 1 else 0) = 0; rw [hx]; rfl
      refine .inl ⟨?_, h0⟩
      have : conflictsOf r evs + c'.alive r = ({ c with now := now } : Core).alive r := hev
      omega
    | some x =>
      have a1 : ({ c with now := now } : Core).alive r = 1 := by unfold Core.alive; show (if (c.recs r).isSome then 1 else 0) = 1; rw [hx]; rfl
      have hev : conflictsOf r evs + c'.alive r = ({ c with now := now } : Core).alive r := hev
      rcases n.freed (x := x) (r := r) hx with h2 | ⟨h2, hb, q, mq, hab, hd, hcc⟩
      · have a2 : c'.alive r = 1 := by unfold Core.alive; rw [h2]; rfl
        exact .inl ⟨by omega, h2⟩
      · have a2 : c'.alive r = 0 := by unfold Core.alive; rw [h2]; rfl
        exact .inr ⟨by omega, fun y hy => (by rw [h2] at hy; cases hy), x, rfl, .inl ⟨hq, hb, q, mq, hab, hd, (clash_of ha hab).mp hcc⟩⟩
  | response _ hq hl _ n =>
    obtain ⟨_, _, _, rfl, _⟩ := hl
    rcases answers_fate n ha r with h1 | ⟨h1, h0, x, hx, hs⟩
    · exact .inl h1
    · exact .inr ⟨h1, h0, x, hx, .inr ⟨hq, hs⟩⟩

/-! ### The other calls -/

/-- The record is there, with the same contents. -/
def Stays (r : Nat) (a : Answer) (c : Core) : Prop := ∃ x, c.recs r = some x ∧ x.rr = a

/-- Steps that neither set, withdraw nor free the record leave its contents alone, if it has a lifetime. -/
theorem steps_keep {u v : View} {ls : List Lab} (n : RSteps u ls v) (hl : ∀ a ∈ ls, a = .ask ∨ a = .verify ∨ ∃ s w, a = .put s w)
    {x : Rec} (hx : u.x = some x) (ht : x.rr.ttl ≠ 0) : ∃ x', v.x = some x' ∧ x'.rr = x.rr := by
  induction n generalizing x with
  | refl => exact ⟨x, hx, rfl⟩
  | @step u v w a b h _ ih =>
    have ih := fun {y : Rec} => ih (fun a m => hl a (by simp [m])) (x := y)
    have hl : ∀ c ∈ a, c = .ask ∨ c = .verify ∨ ∃ s w, c = .put s w := fun c m => hl c (by simp [m])
    have next : ∀ {y : Rec}, v.x = some y → y.rr = x.rr → ∃ x', w.x = some x' ∧ x'.rr = x.rr := by
      intro y hy e
      obtain ⟨z, hz, ez⟩ := ih hy (by rw [e]; exact ht)
      exact ⟨z, hz, ez.trans e⟩
    cases h with
    | touch h => cases hx; exact next rfl h.rr
    | skip => cases hx; exact next rfl rfl
    | shared => cases hx
    | unique => cases hx
    | edit => simpa using hl .set (by simp)
    | publish => simpa using hl .set (by simp)
    | queue => cases hx; exact next rfl rfl
    | bye => simpa using hl .bye (by simp)
    | drop => simpa using hl .free (by simp)
    | sent _ _ h => cases hx; exact next rfl h.rr
    | sentBye _ h => cases hx; exact absurd h ht
    | announce _ _ h => cases hx; exact next rfl h
    | announceLast _ _ h => cases hx; exact next rfl h
    | verify _ h => cases hx; exact next rfl h
    | propose _ h => cases hx; exact next rfl h
    | unicast h => cases hx; exact next rfl h.rr
    | extra => cases hx; exact next rfl rfl

theorem run_keep {P : Nat → Lab → Prop} {c c' : Core} {l l' : Lists} {ts : List (Section × Nat)} (n : Run P c l ts c' l') {r : Nat}
    {a : Answer} (hp : ∀ b, P r b → b = .ask ∨ b = .verify ∨ ∃ s w, b = .put s w) (ht : a.ttl ≠ 0) (h : Stays r a c) : Stays r a c' := by
  obtain ⟨ls, st, _, p⟩ := n.steps r
  obtain ⟨x, hx, rfl⟩ := h
  exact steps_keep st (fun b m => hp b (p b m)) hx ht

theorem set_keep {type : Nat} {ip : Ip} {rs : List Nat} {c c' : Core} {l l' : Lists} (n : SetL type ip rs c l c' l') {r : Nat}
    {a : Answer} (ht : a.type ≠ type) (h : Stays r a c) : Stays r a c' := by
  induction n with
  | nil => exact h
  | skip _ _ _ _ ih => exact ih h
  | @set s rs c _ l _ x _ hx hty _ ih =>
    refine ih ?_
    obtain ⟨y, hy, e⟩ := h
    obtain ⟨f, hf⟩ := setSt_recs (c := c) (l := l) (Rec.withAddr_role x ip) r
    rw [if_neg (show r ≠ s from fun er => by subst er; rw [hx] at hy; cases hy; exact ht (e ▸ hty))] at hf
    exact ⟨y, hf.trans hy, e⟩

theorem bye_keep {p : Rec → Prop} {rs : List Nat} {c c' : Core} {l l' : Lists} (n : ByeL p rs c l c' l') {r : Nat}
    {a : Answer} (hp : ∀ x : Rec, x.rr = a → ¬ p x) (h : Stays r a c) : Stays r a c' := by
  induction n with
  | nil => exact h
  | skip _ _ _ _ ih => exact ih h
  | @bye s rs c _ l _ x _ hx hty _ _ ih =>
    refine ih ?_
    obtain ⟨y, hy, e⟩ := h
    have ne : r ≠ s := fun er => by subst er; rw [hx] at hy; cases hy; exact hp _ e hty
    exact ⟨y, (upd_other _ _ _ _ ne).trans hy, e⟩

theorem add_keep {host : Bytes} {type ttl : Nat} {wants : List Ip} {c c' : Core} {l l' : Lists}
    (n : AddA host type ttl wants c l c' l') {r : Nat} {a : Answer} (h : Stays r a c) : Stays r a c' := by
  induction n with
  | nil => exact h
  | there _ _ _ ih => exact ih h
  | @new want wants c _ l _ hi _ _ ih =>
    refine ih ?_
    obtain ⟨y, hy, e⟩ := h
    have ne : r ≠ l.size := fun er => by subst er; rw [hi.rinv.absent.1] at hy; cases hy
    obtain ⟨f, hf⟩ := setSt_recs (c := c.publishRec l.size (sharedRec host type ttl)) (l := l.fresh false)
      (Rec.withAddr_role (sharedRec host type ttl) want) r
    rw [if_neg ne] at hf
    exact ⟨y, hf.trans ((upd_other _ _ _ _ ne).trans hy), e⟩

theorem drop_keep {host : Bytes} {type : Nat} {want : List Ip} {rs : List Nat} {c c' : Core} {l l' : Lists}
    (n : DropA host type want rs c l c' l') {r : Nat} {a : Answer}
    (ha : ¬ (a.type = type ∧ a.name = host ∧ a.addrOf type ∉ want)) (h : Stays r a c) : Stays r a c' := by
  induction n with
  | nil => exact h
  | keep _ _ _ _ ih => exact ih h
  | @drop s rs c _ l _ x hi hx hk _ ih =>
    refine ih ?_
    obtain ⟨y, hy, e⟩ := h
    have ne : r ≠ s := fun er => by subst er; rw [hx] at hy; cases hy; exact ha (e ▸ hk)
    have : (view _ _ r).x = (view _ _ r).x := congrArg View.x ((doneSt_recs hi.rinv hx).2 r ne)
    exact ⟨y, (this : _ = c.recs r).trans hy, e⟩

theorem upd_keep {host : Bytes} {type : Nat} {want : List Ip} {c c' : Core} {l l' : Lists} (n : UpdA host type want c l c' l')
    {r : Nat} {a : Answer} (ha : ¬ (a.type = type ∧ a.name = host ∧ a.addrOf type ∉ want)) (h : Stays r a c) : Stays r a c' := by
  obtain ⟨_, _, n1, n2⟩ := n
  exact drop_keep n2 ha (add_keep n1 h)

theorem if_keep {v4 : List Ip4} {v6 : List Ip6} {hosts : List Bytes} {c c' : Core} {l l' : Lists} (n : IfA v4 v6 hosts c l c' l')
    {r : Nat} {a : Answer} (h4 : ¬ (a.type = 1 ∧ a.addrOf 1 ∉ v4.map Ip.v4)) (h6 : ¬ (a.type = 28 ∧ a.addrOf 28 ∉ v6.map Ip.v6))
    (h : Stays r a c) : Stays r a c' := by
  induction n with
  | nil => exact h
  | cons n1 n2 _ ih => exact ih (upd_keep n2 (fun g => h6 ⟨g.1, g.2.2⟩) (upd_keep n1 (fun g => h4 ⟨g.1, g.2.2⟩) h))

theorem setSt_keep {c : Core} {l : Lists} {s : Nat} {x x' : Rec} (hr : SameRole x x') {r : Nat} {a : Answer} (ne : s ≠ r)
    (h : Stays r a c) : Stays r a (setSt c l s x').c := by
  obtain ⟨y, hy, e⟩ := h
  obtain ⟨f, hf⟩ := setSt_recs (c := c) (l := l) hr r
  rw [if_neg (Ne.symm ne)] at hf
  exact ⟨y, hf.trans hy, e⟩

theorem addrOf_v4 {a : Answer} {ips : List Ip4} : a.addrOf 1 ∈ ips.map Ip.v4 ↔ a.ip ∈ ips := by
  simp [Answer.addrOf]

theorem addrOf_v6 {a : Answer} {ips : List Ip6} : a.addrOf 28 ∈ ips.map Ip.v6 ↔ a.ip6 ∈ ips := by
  simp [Answer.addrOf]

/-- A call that does not disturb the record and reports no conflict of it leaves it alone. -/
theorem did_keep {env : Env} {o : Op} {c c' : Core} {l l' : Lists} {out : OpOut} (n : Did env o c l out c' l') (h : DInv c l)
    (hu : ∀ u ∈ c.uanswers, u.to.port ≠ 5353) {r : Nat} {a : Answer} (hd : o.disturbs r a = false) (ht : a.ttl ≠ 0)
    (hc : conflictsOf r c'.log = conflictsOf r c.log) (hs : Stays r a c) : Stays r a c' := by
  have run := n.run h hu
  cases n with
  | setFamily => exact hs
  | setAddress n =>
    have ht : a.type ≠ 1 := by simpa [Op.disturbs] using hd
    cases n with
    | same => exact hs
    | set _ _ n => exact (set_keep n ht hs :)
    | bye _ _ n => exact (bye_keep n (fun x e => by rw [e]; exact ht) hs :)
  | setIpv6Address n =>
    have ht : a.type ≠ 28 := by simpa [Op.disturbs] using hd
    cases n with
    | same => exact hs
    | set _ _ n => exact (set_keep n ht hs :)
    | bye _ _ n => exact (bye_keep n (fun x e => by rw [e]; exact ht) hs :)
  | shutdown => cases hd
  | receiveCallback => exact hs
  | recv wf n =>
    rcases recv_fate n wf r with ⟨_, e⟩ | ⟨lt, _⟩
    · obtain ⟨x, hx, e'⟩ := hs
      exact ⟨x, e.trans hx, e'⟩
    · omega
  | send =>
    refine run_keep run (fun b hb => ?_) ht hs
    rcases hb with hb | ⟨s, w, hb, _⟩
    · exact .inr (.inl hb)
    · exact .inr (.inr ⟨s, w, hb⟩)
  | sleep => exact run_keep run (fun b hb => .inl hb) ht hs
  | query => exact run_keep run (fun b hb => hb.elim) ht hs
  | shared =>
    obtain ⟨y, hy, e⟩ := hs
    have ne : r ≠ l.size := fun er => by subst er; rw [h.rinv.absent.1] at hy; cases hy
    exact ⟨y, (upd_other _ _ _ _ ne).trans hy, e⟩
  | unique =>
    obtain ⟨y, hy, e⟩ := hs
    have ne : r ≠ l.size := fun er => by subst er; rw [h.rinv.absent.1] at hy; cases hy
    exact ⟨y, (upd_other _ _ _ _ ne).trans hy, e⟩
  | @done s x _ _ hx =>
    have ne : s ≠ r := by simpa [Op.disturbs] using hd
    obtain ⟨y, hy, e⟩ := hs
    have : (view _ _ r).x = (view _ _ r).x := congrArg View.x ((doneSt_recs h.rinv hx).2 r (Ne.symm ne))
    exact ⟨y, (this : _ = c.recs r).trans hy, e⟩
  | setRaw hx => exact setSt_keep (x := _) ⟨rfl, rfl, rfl, rfl, rfl, rfl⟩ (by simpa [Op.disturbs] using hd) hs
  | setHost hx => exact setSt_keep (x := _) ⟨rfl, rfl, rfl, rfl, rfl, rfl⟩ (by simpa [Op.disturbs] using hd) hs
  | setIp hx => exact setSt_keep (x := _) ⟨rfl, rfl, rfl, rfl, rfl, rfl⟩ (by simpa [Op.disturbs] using hd) hs
  | setIpv6 hx => exact setSt_keep (x := _) ⟨rfl, rfl, rfl, rfl, rfl, rfl⟩ (by simpa [Op.disturbs] using hd) hs
  | setSrv hx => exact setSt_keep (x := _) ⟨rfl, rfl, rfl, rfl, rfl, rfl⟩ (by simpa [Op.disturbs] using hd) hs
  | @setAddresses host ips _ _ _ _ n =>
    refine upd_keep n (fun g => ?_) hs
    rw [addrOf_v4] at g
    have : (a.type == 1 && a.name == host && !ips.contains a.ip) = true := by simp [g.1, g.2.1, g.2.2]
    exact Bool.noConfusion (this.symm.trans hd)
  | @setIpv6Addresses host ips _ _ _ _ n =>
    refine upd_keep n (fun g => ?_) hs
    rw [addrOf_v6] at g
    have : (a.type == 28 && a.name == host && !ips.contains a.ip6) = true := by simp [g.1, g.2.1, g.2.2]
    exact Bool.noConfusion (this.symm.trans hd)
  | @setInterface ips ip6s _ _ _ _ n =>
    have hd : (a.type == 1 && !ips.contains a.ip || a.type == 28 && !ip6s.contains a.ip6) = false := hd
    rw [Bool.or_eq_false_iff] at hd
    refine if_keep n (fun g => ?_) (fun g => ?_) hs
    · rw [addrOf_v4] at g
      simp [g.1, g.2] at hd
    · rw [addrOf_v6] at g
      simp [g.1, g.2] at hd
  | clear => cases hd
  | stepEnd => exact hs

end Lasting

/-! ### The theorems -/

open Lasting

/-- C92: a record is what it was, its name, type, lifetime and data, after any calls, packets and times, if no call
withdraws or changes it and no conflict of it is reported. -/
theorem C92_lasts {env : Env} {d d' : D Ptrs} (hr : Reach env d) {h : List Call} (n : Calls env d h d') {r : Nat} {x : Rec}
    (hx : d.c.recs r = some x) (ht : x.rr.ttl ≠ 0) (hd : ∀ k ∈ h, k.1.disturbs r x.rr = false)
    (hc : conflictsOf r d'.c.log = conflictsOf r d.c.log) : ∃ x', d'.c.recs r = some x' ∧ x'.rr = x.rr := by
  induction n with
  | nil => exact ⟨x, hx, rfl⟩
  | @snoc h1 d1 d' o a n hs e ih =>
    obtain ⟨e1, l1⟩ := n.log hr
    obtain ⟨e2, l2⟩ := (After.step .refl hs e).log (n.reach' hr)
    have c1 : conflictsOf r d1.c.log = conflictsOf r d.c.log ∧ conflictsOf r d'.c.log = conflictsOf r d1.c.log := by
      rw [l2, l1, conflictsOf_append, conflictsOf_append] at hc
      rw [l2, conflictsOf_append, l1, conflictsOf_append]
      omega
    have hr1 := n.reach' hr
    exact did_keep (hr1.did hs e) hr1.inv hr1.uni (hd (o, a) (by simp)) ht c1.2
      (ih (fun k m => hd k (by simp [m])) c1.1)

/-- C92, conflicts: a packet makes the daemon report a conflict of a record, and give the record up, only if the record is a
unique one and either it was not set yet, is being probed for, and the packet is a query that claims the name with other data;
or it was set, and the packet is a response in which an answer has the record's own name, type and data. -/
theorem C92_reported_only {env : Env} {d d' : D Ptrs} (hr : Reach env d) {now : TV} {m : Msg} {src : Addr} {a : OpOut}
    (wf : ∀ a ∈ m.an, a.WF) (e : Mdns.step env (.recv now m src) d = .ok (a, d')) {r : Nat} :
    (conflictsOf r d'.c.log = conflictsOf r d.c.log ∧ d'.c.recs r = d.c.recs r) ∨
    (conflictsOf r d.c.log < conflictsOf r d'.c.log ∧ (∀ y, d'.c.recs r = some y → y.rr.ttl = 0) ∧ ∃ x, d.c.recs r = some x ∧ x.unique ≠ 0 ∧
      ((m.header.qr = false ∧ x.Unset d r ∧ Claims d.c.cls m x) ∨
       (m.header.qr = true ∧ x.modified = true ∧ ∃ b ∈ m.an, carries b x.rr = true))) := by
  have hd := hr.did (o := .recv now m src) wf e
  have hi := hr.inv
  generalize d'.c = c', d'.lists = l' at hd
  cases hd with
  | recv wf n =>
    rcases recv_fate n wf r with h | ⟨h1, h0, x, hx, h | ⟨h2, b, mb, h3, h4, h5⟩⟩
    · exact .inl h
    · exact .inr ⟨h1, h0, x, hx, h.2.1.1.1, .inl ⟨h.1, ⟨hx, (hi.rinv.probing r x hx).mpr h.2.1.1, h.2.1.2⟩, h.2.2⟩⟩
    · exact .inr ⟨h1, h0, x, hx, h3, .inr ⟨h2, h4, b, mb, h5⟩⟩

end Mdns
