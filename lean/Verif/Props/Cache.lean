import Verif.Lemmas.Answers
import Verif.Props.Memory

/-!
# C18-C22: what is in the cache

The cache is seen through `mdnsd_list`.  What an answer does is said by comparing the same
packet without and with that answer as its last one, received by the same daemon; every packet
arises by adding answers one by one.
-/

namespace Mdns

/-! ### Specification -/

/-- Calling `mdnsd_list` again and again, starting behind `last`, until it returns NULL, gives
these entries. -/
inductive Enum (c : Core) (host : Bytes) (type : Nat) : Option Nat → List Nat → Prop
  | stop {last : Option Nat} (h : c.list host type last = none) : Enum c host type last []
  | next {last : Option Nat} {k : Nat} {ks : List Nat} (h : c.list host type last = some k)
      (n : Enum c host type (some k) ks) : Enum c host type last (k :: ks)

/-- The entries found with at most `n` calls. -/
def Core.listF (c : Core) (host : Bytes) (type : Nat) : Nat → Option Nat → List Nat
  | 0, _ => []
  | n + 1, last =>
    match c.list host type last with
    | none => []
    | some k => k :: c.listF host type n (some k)

/-- What `mdnsd_list` shows of a name and type. -/
def Core.listed (c : Core) (host : Bytes) (type : Nat) : List Answer :=
  (c.listF host type ((c.chain host).length + 1) none).filterMap fun k => ((c.chain host)[k]?).map (·.rr)

/-- The record is somewhere in the cache. -/
def Core.inCache (c : Core) (a : Answer) : Prop := ∃ i, ∃ e ∈ c.cache i, e.rr = a

/-! ### mdnsd_list -/

theorem list_spec {c : Core} {host : Bytes} {type : Nat} (start : Nat) :
    let p := fun e : Cached => e.rr.is host type
    (((c.chain host).drop start).findIdx? p).map (start + ·) = none ∧
      ((c.chain host).drop start).filter p = [] ∨
    ∃ k e, (((c.chain host).drop start).findIdx? p).map (start + ·) = some k ∧ start ≤ k ∧ (c.chain host)[k]? = some e ∧
      p e = true ∧ ((c.chain host).drop start).filter p = e :: ((c.chain host).drop (k + 1)).filter p := by
  intro p
  cases hf : ((c.chain host).drop start).findIdx? p with
  | none =>
    left
    refine ⟨rfl, ?_⟩
    rw [List.findIdx?_eq_none_iff] at hf
    rw [List.filter_eq_nil_iff]
    intro e m
    simp [hf e m]
  | some k =>
    right
    rw [List.findIdx?_eq_some_iff_getElem] at hf
    obtain ⟨hk, hp, hlt⟩ := hf
    refine ⟨start + k, ((c.chain host).drop start)[k], rfl, Nat.le_add_right _ _, ?_, hp, ?_⟩
    · rw [List.getElem_drop]
      have : start + k < (c.chain host).length := by
        rw [List.length_drop] at hk
        omega
      exact List.getElem?_eq_getElem this
    · have hsplit : (c.chain host).drop start = ((c.chain host).drop start).take k ++
          ((c.chain host).drop start)[k] :: (c.chain host).drop (start + k + 1) := by
        have h1 := (List.take_append_drop k ((c.chain host).drop start)).symm
        rw [List.drop_eq_getElem_cons hk, List.drop_drop] at h1
        exact h1
      have hnil : (((c.chain host).drop start).take k).filter p = [] := by
        rw [List.filter_eq_nil_iff]
        intro e m
        obtain ⟨j, hj, rfl⟩ := List.mem_take_iff_getElem.mp m
        exact hlt j (by omega)
      have := congrArg (List.filter p) hsplit
      rw [List.filter_append, hnil, List.nil_append, List.filter_cons, if_pos hp] at this
      exact this

theorem list_start {c : Core} {host : Bytes} {type : Nat} {last : Option Nat} {start : Nat}
    (hs : start = (match last with | none => 0 | some k => k + 1)) : c.list host type last =
      (((c.chain host).drop start).findIdx? fun e => e.rr.is host type).map (start + ·) := by
  subst hs
  rfl

theorem listF_eq {c : Core} {host : Bytes} {type : Nat} : ∀ (n : Nat) (last : Option Nat) (start : Nat),
    start = (match last with | none => 0 | some k => k + 1) → (c.chain host).length < n + start →
    (c.listF host type n last).filterMap (fun k => ((c.chain host)[k]?).map (·.rr)) =
      (((c.chain host).drop start).filter fun e => e.rr.is host type).map (·.rr) ∧
    Enum c host type last (c.listF host type n last) ∧
    (c.listF host type n last).Pairwise (· < ·) ∧ (∀ k ∈ c.listF host type n last, start ≤ k) ∧
    ∀ k ∈ c.listF host type n last, k < (c.chain host).length
  | 0, last, start, hs, hn => by
    have hd : (c.chain host).drop start = [] := List.drop_eq_nil_of_le (by omega)
    have hl : c.list host type last = none := by
      rw [list_start hs, hd]
      rfl
    unfold Core.listF
    rw [hd]
    refine ⟨rfl, .stop hl, .nil, ?_, ?_⟩
    · intro k m; cases m
    · intro k m; cases m
  | n + 1, last, start, hs, hn => by
    have hl : c.list host type last =
        (((c.chain host).drop start).findIdx? fun e => e.rr.is host type).map (start + ·) := list_start hs
    rcases list_spec (c := c) (host := host) (type := type) start with ⟨h1, h2⟩ | ⟨k, e, h1, h2, h3, h4, h5⟩
    · rw [h1] at hl
      unfold Core.listF
      rw [hl, h2]
      refine ⟨rfl, .stop hl, .nil, ?_, ?_⟩
      · intro k m; cases m
      · intro k m; cases m
    · rw [h1] at hl
      have hk : k < (c.chain host).length := by
        rw [List.getElem?_eq_some_iff] at h3
        exact h3.1
      obtain ⟨i1, i2, i3, i4, i5⟩ := listF_eq (c := c) (host := host) (type := type) n (some k) (k + 1) rfl (by omega)
      unfold Core.listF
      rw [hl, h5]
      refine ⟨?_, .next hl i2, ?_, ?_, ?_⟩
      · dsimp only
        rw [List.filterMap_cons, h3]
        simp only [Option.map_some, List.map_cons]
        rw [i1]
      · rw [List.pairwise_cons]
        exact ⟨fun j m => i4 j m, i3⟩
      · intro j m
        rcases List.mem_cons.mp m with rfl | m
        · exact h2
        · have := i4 j m
          omega
      · intro j m
        rcases List.mem_cons.mp m with rfl | m
        · exact hk
        · exact i5 j m

theorem listed_eq (c : Core) (host : Bytes) (type : Nat) :
    c.listed host type = (c.rrs (bucket host lprime)).filter fun a => a.is host type := by
  have h := (listF_eq (c := c) (host := host) (type := type) ((c.chain host).length + 1) none 0 rfl (by omega)).1
  unfold Core.listed
  rw [h, List.drop_zero, Core.rrs, filter_rr]
  rfl

theorem mem_listed {c : Core} (h : CInv c) {host : Bytes} {type : Nat} {a : Answer} :
    a ∈ c.listed host type ↔ c.inCache a ∧ a.name = host ∧ typeFits type a := by
  rw [listed_eq, List.mem_filter, is_iff]
  constructor
  · rintro ⟨m, hn⟩
    obtain ⟨e, he, rfl⟩ := List.mem_map.mp m
    exact ⟨⟨_, e, he, rfl⟩, hn⟩
  · rintro ⟨⟨i, e, he, rfl⟩, hn, ht⟩
    refine ⟨?_, hn, ht⟩
    rw [← hn, h.cbucket i e he]
    exact List.mem_map_of_mem he

/-- C22: calling `mdnsd_list` until it returns NULL ends, comes to no entry twice, and shows
exactly the cached records of the name and type, or of all types for 255. -/
theorem C22_list_exact {env : Env} {d : D Ptrs} (h : Reach env d) (host : Bytes) (type : Nat) :
    (∃ ks, Enum d.c host type none ks ∧ ks.Nodup ∧
      d.c.listed host type = ks.filterMap (fun k => ((d.c.chain host)[k]?).map (·.rr)) ∧
      (d.c.listed host type).length = ks.length) ∧
    ∀ a, a ∈ d.c.listed host type ↔ d.c.inCache a ∧ a.name = host ∧ typeFits type a := by
  obtain ⟨l, hr⟩ := h.rep
  refine ⟨?_, fun a => mem_listed hr.inv.cinv⟩
  obtain ⟨_, h2, h3, _, h5⟩ := listF_eq (c := d.c) (host := host) (type := type) ((d.c.chain host).length + 1) none 0 rfl
    (by omega)
  refine ⟨_, h2, h3.imp (fun h => Nat.ne_of_lt h), rfl, ?_⟩
  unfold Core.listed
  clear h2 h3
  revert h5
  generalize d.c.listF host type ((d.c.chain host).length + 1) none = ks
  intro h5
  induction ks with
  | nil => rfl
  | cons k ks ih =>
    rw [List.filterMap_cons, List.getElem?_eq_getElem (h5 k (by simp))]
    simp only [Option.map_some, List.length_cons]
    rw [ih fun j m => h5 j (by simp [m])]

/-- C18: no record is in the cache twice. -/
theorem C18_no_duplicates {env : Env} {d : D Ptrs} (h : Reach env d) (host : Bytes) (type : Nat) :
    (d.c.listed host type).Pairwise fun a b => ¬ SameRec a b := by
  obtain ⟨l, hr⟩ := h.rep
  rw [listed_eq]
  refine List.Pairwise.filter _ ?_
  rw [Core.rrs, List.pairwise_map]
  exact hr.inv.cinv.cuniq _

/-! ### Answers -/

theorem carries_eq {r : Resource} (hr : r.WF) (a : Answer) : hit r a = carries r a := by
  have s : Addr := ⟨.v4 ip4Zero, 0⟩
  rw [Bool.eq_iff_iff]
  rw [hit_iff hr s 0]
  unfold carries SameRec
  rw [newEntry_name, newEntry_type, Bool.and_eq_true, Bool.and_eq_true, beq_iff_eq, beq_iff_eq]
  constructor
  · rintro ⟨h1, h2, h3⟩
    refine ⟨⟨h1.symm, h2.symm⟩, ?_⟩
    unfold sameData at h3
    rw [newEntry_type] at h3
    unfold Core.newEntry at h3
    split at h3
    all_goals rename_i ht
    · obtain ⟨ip, hk⟩ := hr.a ht
      rw [hk] at h3 ⊢
      simp at h3 ⊢
      exact h3.symm
    · obtain ⟨ip, hk⟩ := hr.aaaa ht
      rw [hk] at h3 ⊢
      simp at h3 ⊢
      exact h3.symm
    · obtain ⟨n, hk⟩ := hr.name (.inl ht)
      rw [hk] at h3 ⊢
      revert h3
      cases s.ip <;> simp <;> exact fun h => h.symm
    · obtain ⟨n, hk⟩ := hr.name (.inr (.inl ht))
      rw [hk] at h3 ⊢
      revert h3
      cases s.ip <;> simp <;> exact fun h => h.symm
    · obtain ⟨n, hk⟩ := hr.name (.inr (.inr ht))
      rw [hk] at h3 ⊢
      revert h3
      cases s.ip <;> simp <;> exact fun h => h.symm
    · obtain ⟨p, w, o, n, hk⟩ := hr.srv ht
      rw [hk] at h3 ⊢
      simp at h3 ⊢
      exact ⟨⟨⟨h3.1.symm, h3.2.1.symm⟩, h3.2.2.1.symm⟩, h3.2.2.2.symm⟩
    · have hk := hr.other (by assumption) (by assumption) (by assumption) (by assumption) (by assumption) (by assumption)
      rw [hk] at h3 ⊢
      dsimp only at h3 ⊢
      rw [beq_iff_eq, ← h3]
      split
      · rename_i h0
        rw [h0]
        rfl
      · rfl
  · rintro ⟨⟨h1, h2⟩, h3⟩
    refine ⟨h1.symm, h2.symm, ?_⟩
    unfold sameData
    rw [newEntry_type]
    unfold Core.newEntry
    split
    all_goals rename_i ht
    · obtain ⟨ip, hk⟩ := hr.a ht
      rw [hk] at h3 ⊢
      simp at h3 ⊢
      exact h3.symm
    · obtain ⟨ip, hk⟩ := hr.aaaa ht
      rw [hk] at h3 ⊢
      simp at h3 ⊢
      exact h3.symm
    · obtain ⟨n, hk⟩ := hr.name (.inl ht)
      rw [hk] at h3 ⊢
      revert h3
      cases s.ip <;> simp <;> exact fun h => h.symm
    · obtain ⟨n, hk⟩ := hr.name (.inr (.inl ht))
      rw [hk] at h3 ⊢
      revert h3
      cases s.ip <;> simp <;> exact fun h => h.symm
    · obtain ⟨n, hk⟩ := hr.name (.inr (.inr ht))
      rw [hk] at h3 ⊢
      revert h3
      cases s.ip <;> simp <;> exact fun h => h.symm
    · obtain ⟨p, w, o, n, hk⟩ := hr.srv ht
      rw [hk] at h3 ⊢
      simp at h3 ⊢
      exact ⟨h3.1.1.1.symm, h3.1.1.2.symm, h3.1.2.symm, h3.2.symm⟩
    · have hk := hr.other (by assumption) (by assumption) (by assumption) (by assumption) (by assumption) (by assumption)
      rw [hk] at h3 ⊢
      dsimp only at h3 ⊢
      rw [beq_iff_eq] at h3
      rw [h3]
      split
      · rename_i h0
        rw [h0]
        rfl
      · rfl

theorem any_hit {c : Core} {r : Resource} (hr : r.WF) : (c.rrs (bucket r.name lprime)).any (hit r) = true ↔
    ∃ b ∈ c.listed r.name r.type, carries r b = true := by
  rw [List.any_eq_true, listed_eq]
  constructor
  · rintro ⟨b, m, hb⟩
    refine ⟨b, List.mem_filter.mpr ⟨m, ?_⟩, carries_eq hr b ▸ hb⟩
    unfold hit at hb
    exact (Bool.and_eq_true_iff.mp hb).1
  · rintro ⟨b, m, hb⟩
    exact ⟨b, (List.mem_filter.mp m).1, carries_eq hr b ▸ hb⟩

theorem any_hit_false {c : Core} {r : Resource} (hr : r.WF) : (c.rrs (bucket r.name lprime)).any (hit r) = false ↔
    ¬ ∃ b ∈ c.listed r.name r.type, carries r b = true := by
  rw [← any_hit hr, Bool.not_eq_true]

theorem listed_congr {c c' : Core} (h : c'.cache = c.cache) (host : Bytes) (type : Nat) :
    c'.listed host type = c.listed host type := by
  rw [listed_eq, listed_eq, Core.rrs, Core.rrs, h]

theorem carries_name {r : Resource} {a : Answer} (h : carries r a = true) : a.name = r.name := by
  unfold carries at h
  simp only [Bool.and_eq_true, beq_iff_eq] at h
  exact h.1.1

theorem rrs_bucket {c : Core} (h : CInv c) {i : Nat} {a : Answer} (m : a ∈ c.rrs i) : bucket a.name lprime = i := by
  obtain ⟨e, he, rfl⟩ := List.mem_map.mp m
  exact h.cbucket i e he

/-- The record with a new lifetime if it is the one received. -/
def refreshed (r : Resource) (t : Nat) (a : Answer) : Answer := if carries r a then { a with ttl := t } else a

theorem refreshed_is (r : Resource) (t : Nat) (a : Answer) (host : Bytes) (type : Nat) :
    (refreshed r t a).is host type = a.is host type := by
  unfold refreshed
  split <;> rfl

theorem listed_map {c c' : Core} (h : CInv c) {r : Resource} {t : Nat}
    (h1 : c'.rrs (bucket r.name lprime) = (c.rrs (bucket r.name lprime)).map (refreshed r t))
    (h2 : ∀ j, j ≠ bucket r.name lprime → c'.rrs j = c.rrs j) (host : Bytes) (type : Nat) :
    c'.listed host type = (c.listed host type).map (refreshed r t) := by
  rw [listed_eq, listed_eq]
  have hall : c'.rrs (bucket host lprime) = (c.rrs (bucket host lprime)).map (refreshed r t) := by
    by_cases hb : bucket host lprime = bucket r.name lprime
    · rw [hb, h1]
    · rw [h2 _ hb]
      have : ∀ a ∈ c.rrs (bucket host lprime), refreshed r t a = id a := by
        intro a m
        unfold refreshed
        rw [if_neg]
        · rfl
        · intro hc
          have := rrs_bucket h m
          rw [carries_name hc] at this
          exact hb this.symm
      rw [List.map_congr_left this, List.map_id]
  rw [hall, List.filter_map]
  congr 1
  apply List.filter_congr
  intro a _
  exact refreshed_is r t a host type

theorem setChain_rrs (c : Core) (i : Nat) (l : List Cached) : (c.setChain i l).rrs i = l.map (·.rr) := by
  unfold Core.rrs Core.setChain
  simp

theorem setChain_other (c : Core) (i : Nat) (l : List Cached) {j : Nat} (h : j ≠ i) : (c.setChain i l).rrs j = c.rrs j := by
  unfold Core.rrs Core.setChain
  simp only [upd, if_neg h]

/-- What the answer did to history, from the state before the packet's last answer. -/
theorem Before.log {env : Env} {c c0 : Core} {src : Addr} (h : Before env c c0 src) :
    ∃ evs, c0.log = c.log ++ evs ∧ (∀ e ∈ evs, e.quiet) ∧ answersOf evs = [] ∧
      ∀ host type, callback c0.log host type = callback c.log host type := by
  obtain ⟨evs, e, hq⟩ := h.frame.log
  refine ⟨evs, e, hq, ?_, fun host type => ?_⟩
  · rw [answersOf, List.filterMap_eq_nil_iff]
    intro a m
    have := hq a m
    cases a <;> first | rfl | cases this
  · rw [e]
    clear e
    induction evs with
    | nil => rw [List.append_nil]
    | cons ev evs ih =>
      unfold callback at ih ⊢
      rw [List.foldl_append] at ih ⊢
      rw [List.foldl_cons]
      have := hq ev (by simp)
      cases ev with
      | received r => exact ih fun e m => hq e (by simp [m])
      | conflict _ _ _ => exact ih fun e m => hq e (by simp [m])
      | _ => cases this

/-- C19: an answer that is in the cache already and neither has the cache-flush bit nor ends
the record only renews that entry; no query hears of it. -/
theorem C19_known_answer_refreshes {env : Env} {d : D Ptrs} {m : Msg} {src : Addr} {pre : List Resource} {a : Resource}
    (h : Answered env d m src pre a) (now : TV) (hf : a.cls ≠ 32768 + d.c.cls) (ht : a.ttl ≠ 0) :
    ∃ d1 d2, step env (.recv now { m with an := pre } src) d = .ok (.unit, d1) ∧
      step env (.recv now { m with an := pre ++ [a] } src) d = .ok (.unit, d2) ∧
      ((∃ b ∈ d1.c.listed a.name a.type, carries a b = true) →
        (∀ host type, d2.c.listed host type = (d1.c.listed host type).map fun b =>
          if carries a b then { b with ttl := now.sec + a.ttl / 2 + 8 } else b) ∧
        ∃ evs, d2.c.log = d1.c.log ++ evs ∧ ∀ e ∈ evs, (∃ r, e = .received r) ∨ ∃ r n t, e = .conflict r n t) := by
  obtain ⟨d1, d2, c0, e1, e2, r1, r2, hn, hcl, hb, hc⟩ := h.split now
  refine ⟨d1, d2, e1, e2, fun hex => ?_⟩
  have hwa : a.WF := h.wf a (by simp)
  obtain ⟨c1, c', ev1, ev2, e3, hc3, _, _, fl, en⟩ := hb.inv.cacheIn env hwa src
  rw [hc] at e3
  cases e3
  have hl0 := listed_congr hb.frame.cache
  cases fl with
  | yes hcls _ => exact absurd (by rw [hcls, hb.cls, hcl]) hf
  | no _ heq =>
    subst heq
    have hany := (any_hit (c := c1) hwa).mpr (by rw [hl0]; exact hex)
    cases en with
    | goodbye h0 _ _ => exact absurd h0 ht
    | nothing h0 _ _ => exact absurd h0 ht
    | insert _ ins =>
      cases ins with
      | silent hno _ _ => rw [hany] at hno; cases hno
      | told _ _ _ hno => rw [hany] at hno; cases hno
      | refresh _ heq =>
        refine ⟨fun host type => ?_, ?_⟩
        · have hexp : c1.expiry a = now.sec + a.ttl / 2 + 8 := by
            unfold Core.expiry
            rw [hb.now, hn]
          rw [heq, hexp, ← hl0]
          refine listed_map hb.inv (r := a) ?_ (fun j hj => setChain_other _ _ _ hj) host type
          rw [setChain_rrs, Core.rrs, List.map_map, List.map_map]
          apply List.map_congr_left
          intro e _
          simp only [Function.comp, refreshed, carries_eq hwa]
          split <;> rfl
        · obtain ⟨evs, hlog, hq, _⟩ := hb.log
          refine ⟨evs, ?_, fun e m => ?_⟩
          · rw [heq]
            exact hlog
          · have := hq e m
            cases e with
            | received r => exact .inl ⟨r, rfl⟩
            | conflict r n t => exact .inr ⟨r, n, t, rfl⟩
            | _ => cases this

/-! ### Records that are removed -/

/-- Removal as seen by `mdnsd_list`. -/
theorem Removed.listed {env : Env} {i : Nat} {p : Answer → Bool} {c c' : Core} {evs : List Event}
    (h : Removed env i p c c' evs) (host : Bytes) (type : Nat) :
    c'.listed host type = (c.listed host type).filter fun a =>
      if bucket host lprime = i then c.live a && !p a else true := by
  rw [listed_eq, listed_eq]
  by_cases hb : bucket host lprime = i
  · subst hb
    rw [h.rrs, List.filter_filter, List.filter_filter]
    apply List.filter_congr
    intro a _
    rw [if_pos rfl]
    exact Bool.and_comm _ _
  · rw [h.other _ hb]
    have : ∀ a ∈ (c.rrs (bucket host lprime)).filter fun a => a.is host type,
        (if bucket host lprime = i then c.live a && !p a else true) = true := by
      intro a _
      rw [if_neg hb]
    exact (List.filter_eq_self.mpr this).symm

theorem Removed.answers {env : Env} {i : Nat} {p : Answer → Bool} {c c' : Core} {evs : List Event}
    (h : Removed env i p c c' evs) (hi : CInv c) :
    (∀ b ∈ answersOf evs, ∃ b' ∈ c.listed b.name b.type, b = { b' with ttl := 0 } ∧ (b'.ttl ≤ c.now.sec ∨ p b' = true)) ∧
    (answersOf evs).Pairwise fun a b => ¬ SameRec a b := by
  constructor
  · intro b m
    obtain ⟨b', m', rfl⟩ := List.mem_map.mp (h.ans.subset m)
    rw [List.mem_filter] at m'
    refine ⟨b', ?_, rfl, ?_⟩
    · rw [listed_eq, List.mem_filter, is_iff]
      refine ⟨?_, rfl, .inl rfl⟩
      show b' ∈ c.rrs (bucket b'.name lprime)
      rw [rrs_bucket hi m'.1]
      exact m'.1
    · have := m'.2
      rw [Bool.or_eq_true, Bool.not_eq_true'] at this
      rcases this with h1 | h1
      · left
        simp only [Core.live, decide_eq_false_iff_not, Nat.not_lt] at h1
        exact h1
      · exact .inr h1
  · refine List.Pairwise.sublist h.ans ?_
    rw [List.pairwise_map]
    refine List.Pairwise.filter _ ?_
    rw [Core.rrs, List.pairwise_map]
    exact (hi.cuniq i).imp fun hab hs => hab hs

theorem hit_carries {r : Resource} (hr : r.WF) : hit r = carries r := funext fun a => carries_eq hr a

/-- The entry of a record that a registered query asks for is connected to a query. -/
theorem Linked.asked {c : Core} (h : Linked c) (hi : CInv c) {b : Answer} {host : Bytes} {type : Nat}
    (m : b ∈ c.listed host type) (hcb : (callback c.log b.name b.type).isSome)
    (hu : Event.unregistered b.name 255 ∉ c.log) :
    ∃ e ∈ c.cache (bucket host lprime), e.rr = b ∧ e.q.isSome := by
  rw [listed_eq, List.mem_filter] at m
  obtain ⟨e, he, rfl⟩ := List.mem_map.mp m.1
  refine ⟨e, he, rfl, ?_⟩
  obtain ⟨cb, hcb⟩ := Option.isSome_iff_exists.mp hcb
  obtain ⟨q, x, hx, hn, ht, _⟩ := (hi.tcb _ _ _).mp hcb
  exact h _ e q x he hx hn ht hu

/-- C20: an answer with lifetime 0 and without the cache-flush bit removes the record from the
cache, keeps all other records that have not expired, and adds none.  The callbacks made during
this are told, with lifetime 0, of records that were removed, of each at most once.  The record
itself is reported if a query of its name and type is registered, no query of type ANY for the
name was ever ended, and no callback returns -1 for another record that goes away. -/
theorem C20_goodbye_removes_partial {env : Env} {d : D Ptrs} {m : Msg} {src : Addr} {pre : List Resource} {a : Resource}
    (h : Answered env d m src pre a) (now : TV) (hf : a.cls ≠ 32768 + d.c.cls) (ht : a.ttl = 0) :
    ∃ d1 d2 evs, step env (.recv now { m with an := pre } src) d = .ok (.unit, d1) ∧
      step env (.recv now { m with an := pre ++ [a] } src) d = .ok (.unit, d2) ∧ d2.c.log = d1.c.log ++ evs ∧
      (∀ host type, (∀ b ∈ d2.c.listed host type, carries a b = false) ∧
        (d2.c.listed host type).Sublist (d1.c.listed host type) ∧
        ∀ b ∈ d1.c.listed host type, carries a b = false → now.sec < b.ttl → b ∈ d2.c.listed host type) ∧
      (∀ b ∈ answersOf evs, ∃ b' ∈ d1.c.listed b.name b.type,
        b = { b' with ttl := 0 } ∧ (b'.ttl ≤ now.sec ∨ carries a b' = true)) ∧
      (answersOf evs).Pairwise (fun a b => ¬ SameRec a b) ∧
      ∀ b ∈ d1.c.listed a.name a.type, carries a b = true → (callback d1.c.log a.name a.type).isSome →
        Event.unregistered a.name 255 ∉ d1.c.log → env.KeepBut { b with ttl := 0 } →
        { b with ttl := 0 } ∈ answersOf evs := by
  obtain ⟨d1, d2, c0, e1, e2, r1, r2, hn, hcl, hb, hc⟩ := h.split now
  have hwa : a.WF := h.wf a (by simp)
  obtain ⟨c1, c', ev1, ev2, e3, hc3, _, _, fl, en⟩ := hb.inv.cacheIn env hwa src
  rw [hc] at e3
  cases e3
  have hl0 := listed_congr hb.frame.cache
  obtain ⟨qev, hlog, hq, hqa, hqc⟩ := hb.log
  cases fl with
  | yes hcls _ => exact absurd (by rw [hcls, hb.cls, hcl]) hf
  | no _ heq =>
    subst heq
    refine ⟨d1, d2, qev ++ ev2, e1, e2, by rw [hc3.log, hlog]; simp, ?_⟩
    rw [answersOf_append, hqa, List.nil_append]
    cases en with
    | insert h0 _ => exact absurd ht h0
    | nothing _ hno heq =>
      rw [any_hit_false hwa] at hno
      have hd2 : ∀ host type, d2.c.listed host type = d1.c.listed host type := by
        intro host type
        rw [heq, hl0]
      have hd1 : ∀ host type, ∀ b ∈ d1.c.listed host type, carries a b = false := by
        intro host type b mb
        cases hcar : carries a b with
        | false => rfl
        | true =>
          refine absurd ⟨b, ?_, hcar⟩ hno
          rw [← hl0] at mb
          rw [mem_listed hb.inv] at mb ⊢
          refine ⟨mb.1, carries_name hcar, .inl ?_⟩
          unfold carries at hcar
          simp only [Bool.and_eq_true, beq_iff_eq] at hcar
          exact hcar.1.2.symm
      refine ⟨fun host type => ⟨?_, ?_, ?_⟩, ?_, ?_, ?_⟩
      · rw [hd2]
        exact hd1 host type
      · rw [hd2]
        exact List.Sublist.refl _
      · intro b mb _ _
        rw [hd2]
        exact mb
      · intro b mb
        cases mb
      · exact .nil
      · intro b mb hcar
        rw [hd1 _ _ b mb] at hcar
        cases hcar
    | goodbye _ _ rem =>
      rw [hit_carries hwa] at rem
      have hnow : c1.now = now := hb.now.trans hn
      refine ⟨fun host type => ⟨?_, ?_, ?_⟩, ?_, ?_, ?_⟩
      · intro b mb
        rw [rem.listed, List.mem_filter] at mb
        cases hcar : carries a b with
        | false => rfl
        | true =>
          have hb' : bucket host lprime = bucket a.name lprime := by
            have hm := (mem_listed hb.inv).mp mb.1
            rw [← hm.2.1, carries_name hcar]
          have := mb.2
          rw [if_pos hb', hcar] at this
          simp at this
      · rw [rem.listed, hl0]
        exact List.filter_sublist
      · intro b mb hcar hlt
        rw [rem.listed, List.mem_filter, hl0]
        refine ⟨mb, ?_⟩
        split
        · rw [hcar, Core.live, hnow, decide_eq_true hlt]
          rfl
        · rfl
      · intro b mb
        obtain ⟨b', m', h1, h2⟩ := (rem.answers hb.inv).1 b mb
        rw [hl0] at m'
        rw [hnow] at h2
        exact ⟨b', m', h1, h2⟩
      · exact (rem.answers hb.inv).2
      · intro b mb hcar hcb hu hk
        have hlk : Linked c1 := r1.linked.step (FStep.frame hb.frame)
        have hbn := carries_name hcar
        have hbt : b.type = a.type := by
          unfold carries at hcar
          simp only [Bool.and_eq_true, beq_iff_eq] at hcar
          exact hcar.1.2
        have hu' : Event.unregistered b.name 255 ∉ c1.log := by
          rw [hlog, hbn, List.mem_append]
          rintro (m | m)
          · exact hu m
          · exact (hq _ m)
        obtain ⟨e, he, rfl, hqs⟩ := hlk.asked hb.inv (by rw [hl0]; exact mb) (by rw [hqc, hbn, hbt]; exact hcb) hu'
        exact rem.told e he (by rw [hcar, Bool.or_true]) hqs hk

/-- C21, for a single answer: an answer with the cache-flush bit replaces all cached records of
its name and type by itself (or by nothing, if its lifetime is 0), keeps all records of other
names or types that have not expired, and adds nothing else.  Missing: of several such answers
in one packet only the last one remains, since `pre` above may contain others; see
`C21_several_counterexample`. -/
theorem C21_flush_replaces_partial {env : Env} {d : D Ptrs} {m : Msg} {src : Addr} {pre : List Resource} {a : Resource}
    (h : Answered env d m src pre a) (now : TV) (hf : a.cls = 32768 + d.c.cls) :
    ∃ d1 d2, step env (.recv now { m with an := pre } src) d = .ok (.unit, d1) ∧
      step env (.recv now { m with an := pre ++ [a] } src) d = .ok (.unit, d2) ∧
      (a.ttl = 0 → d2.c.listed a.name a.type = []) ∧
      (a.ttl ≠ 0 → ∃ b, d2.c.listed a.name a.type = [b] ∧ carries a b = true ∧ b.ttl = now.sec + a.ttl / 2 + 8) ∧
      (∀ host type b, b ∈ d2.c.listed host type → b ∈ d1.c.listed host type ∨ b ∈ d2.c.listed a.name a.type) ∧
      ∀ host type b, b ∈ d1.c.listed host type → ¬ (b.name = a.name ∧ typeFits a.type b) → now.sec < b.ttl →
        b ∈ d2.c.listed host type := by
  obtain ⟨d1, d2, c0, e1, e2, r1, r2, hn, hcl, hb, hc⟩ := h.split now
  refine ⟨d1, d2, e1, e2, ?_⟩
  have hwa : a.WF := h.wf a (by simp)
  obtain ⟨c1, c', ev1, ev2, e3, hc3, s1, s2, fl, en⟩ := hb.inv.cacheIn env hwa src
  rw [hc] at e3
  cases e3
  have hl0 := listed_congr hb.frame.cache
  have hnow : c0.now = now := hb.now.trans hn
  cases fl with
  | no hcls _ => exact absurd (by rw [hf, hb.cls, hcl]) hcls
  | yes _ rem =>
    -- after the flush
    have hempty : c1.listed a.name a.type = [] := by
      rw [rem.listed, List.filter_eq_nil_iff]
      intro b mb
      rw [if_pos rfl]
      rw [listed_eq, List.mem_filter] at mb
      rw [mb.2]
      simp
    have hno : (c1.rrs (bucket a.name lprime)).any (hit a) = false := by
      rw [any_hit_false hwa, hempty]
      simp
    have hsub : ∀ host type b, b ∈ c1.listed host type → b ∈ d1.c.listed host type := by
      intro host type b mb
      rw [rem.listed, List.mem_filter, hl0] at mb
      exact mb.1
    have hkept : ∀ host type b, b ∈ d1.c.listed host type → ¬ (b.name = a.name ∧ typeFits a.type b) → now.sec < b.ttl →
        b ∈ c1.listed host type := by
      intro host type b mb hne hlt
      rw [rem.listed, List.mem_filter, hl0]
      refine ⟨mb, ?_⟩
      split
      · have : b.is a.name a.type = false := by
          rw [Bool.eq_false_iff, Ne, is_iff]
          exact hne
        rw [this, Core.live, hnow, decide_eq_true hlt]
        rfl
      · rfl
    cases en with
    | goodbye _ hyes _ => rw [hno] at hyes; cases hyes
    | nothing h0 _ heq =>
      rw [heq]
      refine ⟨fun _ => hempty, fun h1 => absurd h0 h1, fun host type b mb => .inl (hsub host type b mb), hkept⟩
    | insert h0 ins =>
      have hnow1 : c1.expiry a = now.sec + a.ttl / 2 + 8 := by
        unfold Core.expiry
        rw [s1.now, hnow]
      -- the new entry in front
      have hnew : d2.c.rrs (bucket a.name lprime) = Core.newEntry a src (c1.expiry a) :: c1.rrs (bucket a.name lprime) ∧
          ∀ j, j ≠ bucket a.name lprime → d2.c.rrs j = c1.rrs j := by
        cases ins with
        | refresh hyes _ => rw [hno] at hyes; cases hyes
        | silent _ _ heq =>
          rw [heq]
          refine ⟨?_, fun j hj => setChain_other _ _ _ hj⟩
          rw [setChain_rrs]
          rfl
        | told _ _ _ _ _ h1 h2 => exact ⟨h1, h2⟩
      have hlist : ∀ host type, d2.c.listed host type =
          (if (Core.newEntry a src (c1.expiry a)).is host type then [Core.newEntry a src (c1.expiry a)] else []) ++
            c1.listed host type := by
        intro host type
        rw [listed_eq, listed_eq]
        by_cases hbk : bucket host lprime = bucket a.name lprime
        · rw [hbk, hnew.1, List.filter_cons]
          split
          · rfl
          · rfl
        · rw [hnew.2 _ hbk, if_neg, List.nil_append]
          rw [is_iff, newEntry_name]
          rintro ⟨rfl, _⟩
          exact hbk rfl
      have hself : (Core.newEntry a src (c1.expiry a)).is a.name a.type = true := by
        rw [is_iff, newEntry_name]
        exact ⟨rfl, .inl (newEntry_type a src _).symm⟩
      have hl2 : d2.c.listed a.name a.type = [Core.newEntry a src (c1.expiry a)] := by
        rw [hlist, hself, hempty]
        rfl
      have httl : (Core.newEntry a src (c1.expiry a)).ttl = c1.expiry a := by
        unfold Core.newEntry
        cases a.known <;> first | rfl | (cases src.ip <;> rfl)
      refine ⟨fun h1 => absurd h1 h0, fun _ => ⟨_, hl2, ?_, by rw [httl, hnow1]⟩, ?_, ?_⟩
      · rw [← carries_eq hwa, hit_iff hwa src (c1.expiry a)]
        exact SameRec.refl _
      · intro host type b mb
        rw [hlist, List.mem_append] at mb
        rcases mb with mb | mb
        · right
          split at mb
          · rw [hl2]
            exact mb
          · cases mb
        · exact .inl (hsub host type b mb)
      · intro host type b mb hne hlt
        rw [hlist, List.mem_append]
        exact .inr (hkept host type b mb hne hlt)

/-! ### Concrete cases -/

namespace Sample

/-- The state after some calls. -/
def after (env : Env) (ops : List Op) : D Ptrs :=
  match run env ops (newD 1 1500 (at_ 100)) with
  | .ok (_, d) => d
  | _ => newD 1 1500 (at_ 100)

theorem reach_after {env : Env} (hk : env.KeepOnExpiry) (ops : List Op)
    (h : safeRunB env (newD 1 1500 (at_ 100)) ops = true) : Reach env (after env ops) := by
  unfold after
  cases e : run env ops (newD 1 1500 (at_ 100)) with
  | ok p => exact SafeRun.reach ops (.new _ _ _) (safeRunB_sound hk ops h) e
  | ub => exact .new _ _ _
  | hang => exact .new _ _ _

/-- A PTR record from `a.` to the name `n`. -/
def ptrTo (n : UInt8) (cls ttl : Nat) : Resource := ⟨nm 97, 12, cls, ttl, [], .name (nm n)⟩
/-- The class with the cache-flush bit. -/
def flush : Nat := 32769

/-- Records for `b.` and `c.` are in the cache and a query is registered. -/
def cached : D Ptrs := after quiet [.query (nm 97) 12 (some 7),
  .recv (at_ 101) { ptrMsg 10 with an := [ptrTo 98 1 10, ptrTo 99 1 100] } other]

theorem cached_reach : Reach quiet cached := reach_after quiet_keeps _ (by decide +kernel)

theorem cached_answered {pre : List Resource} {a : Resource} (h : opSafeB cached (.recv (at_ 102)
    { ptrMsg 10 with an := pre ++ [a] } other) = true) : Answered quiet cached (ptrMsg 10) other pre a := by
  refine ⟨cached_reach, by decide +kernel, rfl, ⟨?_, ?_, ?_⟩, opSafeB_sound quiet_keeps h⟩
  · intro a e
    cases e
    decide +kernel
  · intro a e
    cases e
  · intro n l e
    cases e
    simp

/-- Both are listed, with half the lifetime and 8 seconds. -/
example : (cached.c.listed (nm 97) 12).map (fun b => (b.rdname, b.ttl)) = [(some (nm 99), 159), (some (nm 98), 114)] := by
  decide +kernel

/-- C19: receiving the first one again. -/
example : Answered quiet cached (ptrMsg 10) other [] (ptrTo 98 1 50) ∧
    (∃ b ∈ (after quiet [.query (nm 97) 12 (some 7),
      .recv (at_ 101) { ptrMsg 10 with an := [ptrTo 98 1 10, ptrTo 99 1 100] } other,
      .recv (at_ 102) { ptrMsg 10 with an := [] } other]).c.listed (nm 97) 12, carries (ptrTo 98 1 50) b = true) :=
  ⟨cached_answered (by decide +kernel), by decide +kernel⟩

/-- C20: a goodbye for the first one. -/
example : Answered quiet cached (ptrMsg 10) other [ptrTo 100 1 9] (ptrTo 98 1 0) ∧
    (ptrTo 98 1 0).cls ≠ 32768 + cached.c.cls ∧ callback cached.c.log (nm 97) 12 = some 7 :=
  ⟨cached_answered (by decide +kernel), by decide +kernel, by decide +kernel⟩

/-- C21: another one, with the cache-flush bit. -/
example : Answered quiet cached (ptrMsg 10) other [] (ptrTo 100 flush 20) ∧
    (ptrTo 100 flush 20).cls = 32768 + cached.c.cls :=
  ⟨cached_answered (by decide +kernel), by decide +kernel⟩

end Sample

open Sample in
/-- C20 is false in full: when a query of type ANY for the name is registered, it takes the
entries away from the query of the record's type, and when it ends nobody hears of the goodbye
(`libmdnsd/mdnsd.c:397-398` clears the references of the entries and does not look for another query). -/
theorem C20_any_counterexample :
    let d := after quiet [.query (nm 97) 12 (some 7), .recv (at_ 101) (ptrMsg 10) other, .query (nm 97) 255 (some 8),
      .query (nm 97) 255 none]
    let d' := after quiet [.query (nm 97) 12 (some 7), .recv (at_ 101) (ptrMsg 10) other, .query (nm 97) 255 (some 8),
      .query (nm 97) 255 none, .recv (at_ 102) (ptrMsg 0) other]
    callback d.c.log (nm 97) 12 = some 7 ∧ (d.c.listed (nm 97) 12).length = 1 ∧ d'.c.listed (nm 97) 12 = [] ∧
      d'.c.log = d.c.log := by decide +kernel

open Sample in
/-- C21 is false in full: of two records with the cache-flush bit that arrive in one packet for
the same name and type, only the last one is in the cache afterwards
(`libmdnsd/mdnsd.c:549-554` does not look at the age of the entries). -/
theorem C21_several_counterexample :
    ((after quiet [.recv (at_ 101) { ptrMsg 10 with an := [ptrTo 98 flush 10, ptrTo 99 flush 10] } other]).c.listed
      (nm 97) 12).map (·.rdname) = [some (nm 99)] := by decide +kernel

end Mdns
