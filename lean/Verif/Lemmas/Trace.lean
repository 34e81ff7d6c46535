import Verif.Lemmas.Safety

/-!
# Every call as a sequence of small steps on cache, queries and history

Invariants of cache, queries and history need to be shown for these steps only.
-/

namespace Mdns

/-- Cache and queries are unchanged, and nothing happened that concerns queries. -/
structure Frame (env : Env) (c c' : Core) : Prop where
  cache : c'.cache = c.cache
  qs : c'.qs = c.qs
  nextq : c'.nextq = c.nextq
  queries : c'.queries = c.queries
  qlist : c'.qlist = c.qlist
  log : ∃ evs, c'.log = c.log ++ evs ∧ ∀ e ∈ evs, e.quiet
  locals : (c'.locals = c.locals ∧ c'.refreshed = c.refreshed) ∨ ∃ k, env.ifaddrs k = some c'.locals

/-- The same but for its lifetime. -/
def Cached.retimed (e e' : Cached) : Prop := e'.q = e.q ∧ ∃ t, e'.rr = { e.rr with ttl := t }

theorem Cached.retimed.refl (e : Cached) : e.retimed e := ⟨rfl, e.rr.ttl, rfl⟩

/-- The same entries, but for their lifetimes. -/
structure Retimed (l l' : List Cached) : Prop where
  to : ∀ e ∈ l, ∃ e' ∈ l', e.retimed e'
  back : ∀ e' ∈ l', ∃ e ∈ l, e.retimed e'

theorem Retimed.refl (l : List Cached) : Retimed l l := ⟨fun e m => ⟨e, m, .refl e⟩, fun e m => ⟨e, m, .refl e⟩⟩

/-- A small step; `K` are the calls of `mdnsd_query` that may be made from outside. -/
inductive CStep (env : Env) (K : Bytes → Nat → Option Nat → Prop) : Core → Core → Prop
  | frame {c c' : Core} (h : Frame env c c') : CStep env K c c'
  /-- lifetimes changed -/
  | ttls {c : Core} (f : Nat → List Cached) (h : CInv c) (hf : ∀ i, Retimed (c.cache i) (f i)) :
      CStep env K c { c with cache := f }
  | query {c c' : Core} {host : Bytes} {type : Nat} {a : Option Nat} (h : CInv c) (hk : K host type a)
      (e : c.query host type a = .ok c') :
      CStep env K c c'
  /-- an entry that has expired is removed and reported -/
  | expire {c c' : Core} {i k : Nat} {en : Cached} (h : CInv c) (hk : (c.cache i)[k]? = some en)
      (hd : en.rr.ttl ≤ c.now.sec)
      (e : ({ c with cache := upd c.cache i ((c.cache i).eraseIdx k) } : Core).qAnswer env en = .ok c') : CStep env K c c'
  /-- a new entry -/
  | enter {c c' : Core} {r : Resource} {src : Addr} (h : CInv c) (hr : r.WF)
      (hn : (c.rrs (bucket r.name lprime)).any (hit r) = false) (e : c.insert env r src = .ok c') : CStep env K c c'
  | reset {c : Core} {q : Nat} {x : Query} (h : CInv c) (hx : c.qs q = some x) : CStep env K c (c.resetQ q x)
  | asked {c : Core} {q : Nat} {x : Query} (h : CInv c) (hx : c.qs q = some x) : CStep env K c (c.askedQ q x)

/-- Small steps. -/
inductive CSteps (env : Env) (K : Bytes → Nat → Option Nat → Prop) : Core → Core → Prop
  | refl (c : Core) : CSteps env K c c
  | step {a b c : Core} (h : CStep env K a b) (n : CSteps env K b c) : CSteps env K a c

variable {K : Bytes → Nat → Option Nat → Prop}

theorem CSteps.one {env : Env} {a b : Core} (h : CStep env K a b) : CSteps env K a b := .step h (.refl _)

theorem CSteps.trans {env : Env} {a b c : Core} (h : CSteps env K a b) (h' : CSteps env K b c) : CSteps env K a c := by
  induction h with
  | refl => exact h'
  | step h _ ih => exact .step h (ih h')

theorem Frame.recfree {env : Env} {c c' : Core} (e : c'.recfree = c.recfree) : Frame env c c' where
  cache := (congrArg Core.cache e : c'.recfree.cache = c.recfree.cache)
  qs := (congrArg Core.qs e : c'.recfree.qs = c.recfree.qs)
  nextq := (congrArg Core.nextq e : c'.recfree.nextq = c.recfree.nextq)
  queries := (congrArg Core.queries e : c'.recfree.queries = c.recfree.queries)
  qlist := (congrArg Core.qlist e : c'.recfree.qlist = c.recfree.qlist)
  log := ⟨[], by rw [recfree_log e]; simp, fun _ m => by cases m⟩
  locals := .inl ⟨(congrArg Core.locals e : c'.recfree.locals = c.recfree.locals),
    (congrArg Core.refreshed e : c'.recfree.refreshed = c.recfree.refreshed)⟩

theorem Frame.refl {env : Env} (c : Core) : Frame env c c := .recfree rfl

theorem Frame.trans {env : Env} {a b c : Core} (h : Frame env a b) (h' : Frame env b c) : Frame env a c where
  cache := h'.cache.trans h.cache
  qs := h'.qs.trans h.qs
  nextq := h'.nextq.trans h.nextq
  queries := h'.queries.trans h.queries
  qlist := h'.qlist.trans h.qlist
  log := by
    obtain ⟨e1, l1, q1⟩ := h.log
    obtain ⟨e2, l2, q2⟩ := h'.log
    refine ⟨e1 ++ e2, by rw [l2, l1, List.append_assoc], fun e m => ?_⟩
    rcases List.mem_append.mp m with m | m
    · exact q1 e m
    · exact q2 e m
  locals := by
    rcases h'.locals with h' | h'
    · rw [h'.1, h'.2]
      exact h.locals
    · exact .inr h'

theorem Frame.steps {env : Env} {c c' : Core} (h : Frame env c c') : CSteps env K c c' := .one (.frame h)

theorem Frame.heard {env : Env} (c : Core) {evs : List Event} (h : ∀ e ∈ evs, e.quiet) : Frame env c (c.heard evs) :=
  { Frame.refl c with log := ⟨evs, rfl, h⟩ }

theorem Locals.frame {env : Env} {c c' : Core} (h : Locals env c c') : Frame env c c' := by
  obtain ⟨a, b, n, rfl, h⟩ := h
  exact { Frame.refl (env := env) c with locals := h }

theorem Frame.now {env : Env} (c : Core) (now : TV) : Frame env c { c with now := now } := { Frame.refl c with }

/-! ### The cache functions -/

theorem erased {c : Core} (h : CInv c) (i k : Nat) :
    (∀ j e, e ∈ upd c.cache i ((c.cache i).eraseIdx k) j →
      ∃ e' ∈ c.cache j, e.rr.name = e'.rr.name ∧ e.rr.type = e'.rr.type ∧ e.q = e'.q) ∧
    CInv { c with cache := upd c.cache i ((c.cache i).eraseIdx k) } := by
  have h1 : ∀ j e, e ∈ upd c.cache i ((c.cache i).eraseIdx k) j →
      ∃ e' ∈ c.cache j, e.rr.name = e'.rr.name ∧ e.rr.type = e'.rr.type ∧ e.q = e'.q := by
    intro j e m
    unfold upd at m
    split at m
    · rename_i hj
      exact ⟨e, hj ▸ (List.eraseIdx_sublist (c.cache i) k).subset m, rfl, rfl, rfl⟩
    · exact ⟨e, m, rfl, rfl, rfl⟩
  refine ⟨h1, h.withCache _ h1 fun j => ?_⟩
  unfold upd
  split
  · exact (h.cuniq i).sublist (List.eraseIdx_sublist _ k)
  · exact h.cuniq j

theorem CInv.cExpireF_steps (env : Env) (i : Nat) : ∀ (fuel k : Nat) {c c' : Core}, CInv c →
    Core.cExpireF env i fuel k c = .ok c' → CSteps env K c c' ∧ CInv c'
  | 0, _, _, _, _, e => by cases e
  | fuel + 1, k, c, c', h, e => by
    unfold Core.cExpireF at e
    cases hk : (c.cache i)[k]? with
    | none =>
      rw [hk] at e
      cases e
      exact ⟨.refl _, h⟩
    | some en =>
      rw [hk] at e
      dsimp only at e
      split at e
      · obtain ⟨h1, h2⟩ := erased h i k
        have hq : ∀ q, en.q = some q → ∃ x, c.qs q = some x ∧ x.name = en.rr.name ∧ typeFits x.type en.rr :=
          fun q hq => h.cq i en q (List.mem_of_getElem? hk) hq
        obtain ⟨c1, evs, e1, s1, _⟩ := h2.qAnswer env en hq
        rw [e1] at e
        obtain ⟨n, h'⟩ := CInv.cExpireF_steps env i fuel k s1.inv e
        exact ⟨.step (.expire h hk (by assumption) e1) n, h'⟩
      · exact CInv.cExpireF_steps env i fuel (k + 1) h e

theorem CInv.cExpire_steps {c c' : Core} (h : CInv c) {env : Env} {i : Nat} (e : c.cExpire env i = .ok c') :
    CSteps env K c c' ∧ CInv c' := CInv.cExpireF_steps env i _ 0 h e

theorem CInv.gc_steps {c c' : Core} (h : CInv c) {env : Env} (e : c.gc env = .ok c') : CSteps env K c c' := by
  have go : ∀ (n : Nat) {c c' : Core}, CInv c → Core.gc.go env n c = .ok c' → CSteps env K c c' := by
    intro n
    induction n with
    | zero =>
      intro c c' _ e
      cases e
      exact .refl _
    | succ n ih =>
      intro c c' h e
      unfold Core.gc.go at e
      cases e1 : c.cExpire env (lprime - (n + 1)) with
      | ok c1 =>
        rw [e1] at e
        obtain ⟨n1, h1⟩ := h.cExpire_steps e1
        exact n1.trans (ih h1 e)
      | ub => rw [e1] at e; cases e
      | hang => rw [e1] at e; cases e
  unfold Core.gc at e
  cases e1 : Core.gc.go env lprime c with
  | ok c1 =>
    rw [e1] at e
    cases e
    exact (go _ h e1).trans (Frame.steps { Frame.refl c1 with })
  | ub => rw [e1] at e; cases e
  | hang => rw [e1] at e; cases e

theorem zeroed_steps {c : Core} (h : CInv c) (env : Env) (i : Nat) (p : Answer → Bool) :
    CSteps env K c (c.zeroed i p) := by
  have hz : ∀ e : Cached, e.retimed (zero p e) := by
    intro e
    unfold zero
    split
    · exact ⟨rfl, 0, rfl⟩
    · exact .refl e
  refine .one (.ttls _ h fun j => ?_)
  simp only [upd]
  split
  · rename_i hj
    subst hj
    refine ⟨fun e m => ⟨_, List.mem_map_of_mem m, hz e⟩, fun e m => ?_⟩
    obtain ⟨e', m', rfl⟩ := List.mem_map.mp m
    exact ⟨e', m', hz e'⟩
  · exact .refl _

theorem modEntry_steps {c : Core} (h : CInv c) (env : Env) (i k t : Nat) :
    CSteps env K c (c.modEntry i k fun e => { e with rr := { e.rr with ttl := t } }) := by
  have hz : ∀ (e : Cached) (n : Nat),
      e.retimed (if k = n then { e with rr := { e.rr with ttl := t } } else e) := by
    intro e n
    split
    · exact ⟨rfl, t, rfl⟩
    · exact .refl e
  refine .one (.ttls _ h fun j => ?_)
  simp only [upd]
  split
  · rename_i hj
    subst hj
    refine ⟨fun e m => ?_, fun e m => ?_⟩
    · obtain ⟨n, hn⟩ := List.mem_iff_getElem?.mp m
      refine ⟨_, List.mem_of_getElem? (i := n) ?_, hz e n⟩
      rw [List.getElem?_modify, hn]
      by_cases hkn : k = n <;> simp [hkn]
    · obtain ⟨n, hn⟩ := List.mem_iff_getElem?.mp m
      rw [List.getElem?_modify] at hn
      cases he : (c.cache j)[n]? with
      | none => rw [he] at hn; cases hn
      | some e0 =>
        rw [he] at hn
        refine ⟨e0, List.mem_of_getElem? he, ?_⟩
        have := hz e0 n
        simp at hn
        subst hn
        by_cases hkn : k = n
        · simp only [hkn, if_true] at this ⊢
          exact this
        · simp only [hkn, if_false] at this ⊢
          exact this
  · exact .refl _

theorem CInv.cacheIn_steps {c c' : Core} (h : CInv c) {env : Env} {r : Resource} (hr : r.WF) {src : Addr}
    (e : c.cacheIn env r src = .ok c') : CSteps env K c c' := by
  have hany : ∀ c : Core, (c.cache (bucket r.name lprime)).findIdx? (fun e => hit r e.rr) = none ↔
      (c.rrs (bucket r.name lprime)).any (hit r) = false := by
    intro c
    rw [List.findIdx?_eq_none_iff, Core.rrs, List.any_map, List.any_eq_false]
    simp [Function.comp]
  unfold Core.cacheIn at e
  cases e1 : c.flush env r with
  | ub => rw [e1] at e; cases e
  | hang => rw [e1] at e; cases e
  | ok c1 =>
    rw [e1] at e
    dsimp only at e
    have s1 : CSteps env K c c1 ∧ CInv c1 := by
      rw [Core.flush_eq] at e1
      split at e1
      · obtain ⟨n, h1⟩ := (h.zeroed _ _).cExpire_steps e1
        exact ⟨(zeroed_steps h env _ _).trans n, h1⟩
      · cases e1
        exact ⟨.refl _, h⟩
    refine s1.1.trans ?_
    have h1 := s1.2
    split at e
    · -- deletion
      have del : ∀ (fuel : Nat) {c c' : Core}, CInv c → Core.deleteF env r (bucket r.name lprime) fuel c = .ok c' →
          CSteps env K c c' := by
        intro fuel
        induction fuel with
        | zero => intro c c' _ e; cases e
        | succ fuel ih =>
          intro c c' h e
          unfold Core.deleteF at e
          have e : (match (c.cache (bucket r.name lprime)).findIdx? (fun e => hit r e.rr) with
            | none => .ok c
            | some k =>
              match (c.modEntry (bucket r.name lprime) k fun e => { e with rr := { e.rr with ttl := 0 } }).cExpire env
                (bucket r.name lprime) with
              | .ok c => Core.deleteF env r (bucket r.name lprime) fuel c
              | .ub => .ub
              | .hang => .hang) = Res.ok c' := e
          cases hf : (c.cache (bucket r.name lprime)).findIdx? (fun e => hit r e.rr) with
          | none =>
            rw [hf] at e
            cases e
            exact .refl _
          | some k =>
            rw [hf] at e
            dsimp only at e
            have hm : (c.modEntry (bucket r.name lprime) k fun e => { e with rr := { e.rr with ttl := 0 } }) =
                c.zeroed (bucket r.name lprime) (hit r) := by
              unfold Core.modEntry Core.zeroed
              rw [modify_eq_map _ (fun e => hit r e.rr) _ k hf (h.hit_once hr _)]
              rfl
            rw [hm] at e
            cases e1 : (c.zeroed (bucket r.name lprime) (hit r)).cExpire env (bucket r.name lprime) with
            | ok c1 =>
              rw [e1] at e
              obtain ⟨n, h1⟩ := (h.zeroed _ _).cExpire_steps e1
              exact ((zeroed_steps h env _ _).trans n).trans (ih h1 e)
            | ub => rw [e1] at e; cases e
            | hang => rw [e1] at e; cases e
      exact del _ h1 e
    · cases hn : (c1.rrs (bucket r.name lprime)).any (hit r) with
      | false => exact .one (.enter h1 hr hn e)
      | true =>
        unfold Core.insert at e
        dsimp only at e
        have hs : (c1.cache (bucket r.name lprime)).findIdx? (fun e => e.rr.is r.name r.type && aMatch r e.rr) ≠ none := by
          intro hh
          have := (hany c1).mp hh
          rw [hn] at this
          cases this
        obtain ⟨k, hk⟩ := Option.ne_none_iff_exists'.mp hs
        rw [hk] at e
        cases e
        exact modEntry_steps h1 env _ k _

/-! ### The calls -/

theorem AnsL.frame {env : Env} {src : Addr} {q : Question} {an : List Resource} {rs : List Nat} {s t : ISt}
    (n : AnsL env src q an rs s t) : Frame env s.c t.c := by
  induction n with
  | done h => exact .refl _
  | quiet _ _ _ hl _ _ ih => exact hl.frame.trans ih
  | conflict _ _ _ hl _ _ ih =>
    refine (hl.frame.trans ?_).trans ih
    exact (Frame.heard _ (by simp [Event.quiet])).trans (.recfree rfl)
  | known _ _ _ he _ _ ih => exact (Frame.heard _ (quiet_received he)).trans ih
  | send _ _ _ he _ _ ih =>
    exact ((Frame.heard _ (quiet_received he)).trans (.recfree (sendSt_recfree _ _ _ _))).trans ih

theorem InQ.frame {env : Env} {m : Msg} {src : Addr} {q : Question} {did did' : Bool} {c c' : Core} {l l' : Lists}
    (n : InQ env m src q did c l did' c' l') : Frame env c c' := by
  cases n with
  | none _ => exact .refl _
  | disco _ _ _ n => exact (Frame.trans (b := { c with disco := true }) { Frame.refl c with } (.recfree n.recfree))
  | multi _ _ _ n _ => exact n.frame
  | uni _ _ _ n _ => exact n.frame.trans (.recfree rfl)

theorem InQs.frame {env : Env} {m : Msg} {src : Addr} {qs : List Question} {did : Bool} {c c' : Core} {l l' : Lists}
    (n : InQs env m src qs did c l c' l') : Frame env c c' := by
  induction n with
  | nil => exact .refl _
  | cons _ h _ ih => exact h.frame.trans ih

theorem received_frame (env : Env) (c : Core) (a : Resource) : Frame env c (c.received a) := by
  refine .heard _ fun e m => ?_
  split at m
  · rw [List.mem_singleton] at m
    subst m
    trivial
  · cases m

theorem InA.steps {env : Env} {src : Addr} {a : Resource} {did did' : Bool} {c c' : Core} {l l' : Lists}
    (n : InA env src a did c l did' c' l') (ha : a.WF) (h : DInv c l) : CSteps env K c c' := by
  cases n with
  | cache _ e => exact (received_frame env c a).steps.trans ((h.cinv.received a).cacheIn_steps ha e)
  | own _ hl _ => exact hl.frame.steps
  | @conflict r x c1 c' _ hl hx _ e =>
    have f : Frame env c (doneSt (c1.heard [.conflict r x.rr.name x.rr.type]) l r x).c :=
      (hl.frame.trans (Frame.heard _ (by simp [Event.quiet]))).trans (.recfree (doneSt_recfree _ _ _ _))
    exact (f.trans (received_frame env _ a)).steps.trans (((done_inv h hl hx).cinv.received a).cacheIn_steps ha e)

theorem InAs.steps {env : Env} {src : Addr} {as : List Resource} {did : Bool} {c c' : Core} {l l' : Lists}
    (n : InAs env src as did c l c' l') (ha : ∀ a ∈ as, a.WF) (h : DInv c l) : CSteps env K c c' := by
  induction n with
  | nil => exact .refl _
  | cons _ h1 _ ih =>
    exact (h1.steps (ha _ (by simp)) h).trans (ih (fun a m => ha a (by simp [m])) (h1.inv (ha _ (by simp)) h))

theorem InMsg.steps {env : Env} {now : TV} {m : Msg} {src : Addr} {c c' : Core} {l l' : Lists} {ret : Nat}
    (n : InMsg env now m src c l ret c' l') (hm : ∀ a ∈ m.an, a.WF) (h : DInv c l) : CSteps env K c c' := by
  cases n with
  | shutdown _ => exact .refl _
  | own _ hl _ => exact ((Frame.now c now).trans hl.frame).steps
  | query _ _ hl _ n => exact (((Frame.now c now).trans hl.frame).trans n.frame).steps
  | response _ _ hl _ n =>
    exact ((Frame.now c now).trans hl.frame).steps.trans
      (n.steps hm ⟨hl.cinv (h.atNow now).cinv, hl.rinv (h.atNow now).rinv⟩)

theorem Upd.steps {env : Env} {suf : List Nat} {s t : QSt} (n : Upd env suf s t) : CSteps env K s.c t.c := by
  induction n with
  | done h => exact .refl _
  | idle _ _ _ _ ih => exact ih
  | again h _ _ _ he hc _ hx1 _ ih =>
    exact (h.cExpire_steps he).1.trans (.step (.reset hc.inv hx1) ih)
  | ask h hx _ _ _ ih => exact .step (.asked h hx) ih

theorem QuestOpt.steps {env : Env} {m m' : Out} {c c' : Core} {ret : Nat} (n : QuestOpt env m c ret m' c') :
    CSteps env K c c' := by
  cases n with
  | no h => exact .refl _
  | @yes t _ _ n => exact n.steps.trans (Frame.steps { Frame.refl t.c with })

theorem GcOpt.steps {env : Env} {c c' : Core} (n : GcOpt env c c') : CSteps env K c c' := by
  cases n with
  | no h => exact .refl _
  | yes h _ e => exact h.gc_steps e

theorem OutMsg.steps {env : Env} {c : Core} {l : Lists} {ret : Nat} {m : Out} {to : Addr} {c' : Core} {l' : Lists}
    (n : OutMsg env c l ret m to c' l') : CSteps env K c c' := by
  cases n with
  | unicast hu hx _ => exact .one (.frame (.recfree rfl))
  | shutdown _ n1 n2 _ => exact (Frame.recfree (n2.recfree.trans n1.recfree)).steps
  | normal _ n1 n2 _ n3 =>
    refine (Frame.recfree (n2.recfree.trans n1.recfree)).steps.trans ?_
    cases n3 with
    | answers np => exact (Frame.recfree np.recfree).steps
    | probes np _ _ nb => exact (Frame.recfree (nb.recfree.trans np.recfree)).steps
    | questions np _ _ nb _ nq ng =>
      exact (Frame.recfree (nb.recfree.trans np.recfree)).steps.trans (nq.steps.trans ng.steps)

theorem SetL.recfree {type : Nat} {a : Ip} {rs : List Nat} {c c' : Core} {l l' : Lists}
    (n : SetL type a rs c l c' l') : c'.recfree = c.recfree := by
  induction n with
  | nil h => rfl
  | skip _ _ _ _ ih => exact ih
  | set _ _ _ _ ih => exact ih.trans (setSt_recfree _ _ _ _)

theorem ByeL.recfree {p : Rec → Prop} {rs : List Nat} {c c' : Core} {l l' : Lists}
    (n : ByeL p rs c l c' l') : c'.recfree = c.recfree := by
  induction n with
  | nil h => rfl
  | skip _ _ _ _ ih => exact ih
  | bye _ _ _ _ _ ih => exact ih

theorem addrSt_recfree (c : Core) (l : Lists) (host : Bytes) (type ttl : Nat) (want : Ip) :
    (addrSt c l host type ttl want).c.recfree = c.recfree := by
  unfold addrSt
  rw [setSt_recfree]
  rfl

theorem AddA.recfree {host : Bytes} {type ttl : Nat} {wants : List Ip} {c c' : Core} {l l' : Lists}
    (n : AddA host type ttl wants c l c' l') : c'.recfree = c.recfree := by
  induction n with
  | nil h => rfl
  | there _ _ _ ih => exact ih
  | new _ _ _ ih => exact ih.trans (addrSt_recfree _ _ _ _ _ _)

theorem DropA.recfree {host : Bytes} {type : Nat} {want : List Ip} {rs : List Nat} {c c' : Core} {l l' : Lists}
    (n : DropA host type want rs c l c' l') : c'.recfree = c.recfree := by
  induction n with
  | nil h => rfl
  | keep _ _ _ _ ih => exact ih
  | drop _ _ _ _ ih => exact ih.trans (doneSt_recfree _ _ _ _)

theorem UpdA.recfree {host : Bytes} {type : Nat} {want : List Ip} {c c' : Core} {l l' : Lists}
    (n : UpdA host type want c l c' l') : c'.recfree = c.recfree := by
  obtain ⟨_, _, a, d⟩ := n
  exact d.recfree.trans a.recfree

theorem IfA.recfree {v4 : List Ip4} {v6 : List Ip6} {hosts : List Bytes} {c c' : Core} {l l' : Lists}
    (n : IfA v4 v6 hosts c l c' l') : c'.recfree = c.recfree := by
  induction n with
  | nil h => rfl
  | cons a b _ ih => exact ih.trans (b.recfree.trans a.recfree)

/-- Calls other than `mdnsd_in`, `mdnsd_out` and `mdnsd_query`. -/
def Op.records : Op → Prop
  | .recv _ _ _ => False
  | .send _ => False
  | .query _ _ _ => False
  | _ => True

theorem Did.frame {env : Env} {o : Op} {a : OpOut} {c c' : Core} {l l' : Lists} (n : Did env o c l a c' l')
    (ho : o.records) : Frame env c c' := by
  cases n with
  | recv => exact absurd ho id
  | send => exact absurd ho id
  | query => exact absurd ho id
  | setFamily => exact { Frame.refl c with }
  | setAddress n =>
    cases n with
    | same _ => exact .refl _
    | set _ _ n => exact { Frame.recfree (env := env) n.recfree with }
    | bye _ _ n => exact { Frame.recfree (env := env) n.recfree with }
  | setIpv6Address n =>
    cases n with
    | same _ => exact .refl _
    | set _ _ n => exact { Frame.recfree (env := env) n.recfree with }
    | bye _ _ n => exact { Frame.recfree (env := env) n.recfree with }
  | shutdown _ n =>
    obtain ⟨n⟩ := n
    exact { Frame.recfree (env := env) n.recfree with }
  | receiveCallback => exact { Frame.refl c with }
  | sleep n => cases n <;> exact { Frame.refl c with }
  | shared => exact .recfree rfl
  | unique => exact .recfree rfl
  | done hx => exact .recfree (doneSt_recfree _ _ _ _)
  | setRaw hx => exact .recfree (setSt_recfree _ _ _ _)
  | setHost hx => exact .recfree (setSt_recfree _ _ _ _)
  | setIp hx => exact .recfree (setSt_recfree _ _ _ _)
  | setIpv6 hx => exact .recfree (setSt_recfree _ _ _ _)
  | setSrv hx => exact .recfree (setSt_recfree _ _ _ _)
  | setAddresses n => exact .recfree n.recfree
  | setIpv6Addresses n => exact .recfree n.recfree
  | setInterface n => exact .recfree n.recfree
  | clear _ e _ _ _ => exact .recfree e
  | stepEnd => exact { Frame.refl c with }

/-- The call of `mdnsd_query` a call is. -/
def Op.asks (o : Op) (host : Bytes) (type : Nat) (a : Option Nat) : Prop := o = .query host type a

theorem Did.steps {env : Env} {o : Op} {a : OpOut} {c c' : Core} {l l' : Lists} (n : Did env o c l a c' l')
    (h : DInv c l) : CSteps env o.asks c c' := by
  by_cases ho : o.records
  · exact (n.frame ho).steps
  · cases n with
    | recv wf n => exact n.steps wf h
    | send n => exact (Frame.now c _).steps.trans n.steps
    | query e _ => exact .one (.query h.cinv rfl e)
    | _ => exact absurd trivial ho

/-- An invariant of the small steps holds in every state that can be reached. -/
theorem Reach.invariant {env : Env} {P : Core → Prop} (h0 : ∀ cls frame now, P (newD cls frame now).c)
    (hs : ∀ K c c', P c → CStep env K c c' → P c') {d : D Ptrs} (h : Reach env d) : P d.c := by
  have key : ∀ {K} {c c' : Core}, CSteps env K c c' → P c → P c' := by
    intro K c c' n
    induction n with
    | refl => exact id
    | step h _ ih => exact fun hp => ih (hs _ _ _ hp h)
  induction h with
  | new cls frame now => exact h0 cls frame now
  | step h hsafe e ih =>
    obtain ⟨l, hr⟩ := h.rep
    obtain ⟨a', d'', l', e', n, hr'⟩ := hr.step _ hsafe
    rw [e] at e'
    cases e'
    exact key (n.steps hr.inv) ih

/-! ### Finer steps -/

/-- A step that does one thing. -/
inductive FStep (env : Env) : Core → Core → Prop
  | frame {c c' : Core} (h : Frame env c c') : FStep env c c'
  /-- entries removed or their lifetimes changed -/
  | cut {c : Core} (f : Nat → List Cached) (h : CInv c)
      (hf : ∀ i e, e ∈ f i → ∃ e' ∈ c.cache i, e.rr.name = e'.rr.name ∧ e.rr.type = e'.rr.type ∧ e.q = e'.q) :
      FStep env c { c with cache := f }
  /-- a new entry -/
  | add {c : Core} {e : Cached} {r : Resource} {src : Addr} (h : CInv c) (hr : r.WF)
      (hn : (c.rrs (bucket r.name lprime)).any (hit r) = false) (he : e.rr = Core.newEntry r src (c.expiry r))
      (h1 : ∀ q, e.q = some q → ∃ x, c.qs q = some x ∧ x.name = r.name ∧ x.type = r.type)
      (h2 : e.q = none → ∀ q x, c.qs q = some x → ¬ (x.name = r.name ∧ x.type = r.type)) :
      FStep env c (c.setChain (bucket r.name lprime) (e :: c.cache (bucket r.name lprime)))
  /-- a callback -/
  | call {c : Core} {q : Nat} {x : Query} {rr : Answer} (h : CInv c) (hx : c.qs q = some x) (hn : x.name = rr.name)
      (ht : typeFits x.type rr) : FStep env c { c with log := c.log ++ [.answer q x.cb rr] }
  /-- another callback for a query -/
  | setCb {c : Core} {q : Nat} {x : Query} (h : CInv c) (hx : c.qs q = some x) (cb : Nat) :
      FStep env c { c with qs := upd c.qs q (some { x with cb := cb }), log := c.log ++ [.registered x.name x.type cb] }
  /-- a new query -/
  | newq {c : Core} {host : Bytes} {type : Nat} (h : CInv c) (hn : ∀ q x, c.qs q = some x → ¬ (x.name = host ∧ x.type = type))
      (cb : Nat) : FStep env c (c.addQuery host type cb)
  /-- a query ends -/
  | endq {c c' : Core} {q : Nat} {x : Query} (h : CInv c) (hx : c.qs q = some x) (e : c.qDone q = .ok c') : FStep env c c'
  | reset {c : Core} {q : Nat} {x : Query} (h : CInv c) (hx : c.qs q = some x) : FStep env c (c.resetQ q x)
  | asked {c : Core} {q : Nat} {x : Query} (h : CInv c) (hx : c.qs q = some x) : FStep env c (c.askedQ q x)

/-- Fine steps. -/
inductive FSteps (env : Env) : Core → Core → Prop
  | refl (c : Core) : FSteps env c c
  | step {a b c : Core} (h : FStep env a b) (n : FSteps env b c) : FSteps env a c

theorem FSteps.one {env : Env} {a b : Core} (h : FStep env a b) : FSteps env a b := .step h (.refl _)

theorem FSteps.trans {env : Env} {a b c : Core} (h : FSteps env a b) (h' : FSteps env b c) : FSteps env a c := by
  induction h with
  | refl => exact h'
  | step h _ ih => exact .step h (ih h')

theorem CInv.query_fine {env : Env} {c c' : Core} (h : CInv c) {host : Bytes} {type : Nat} {a : Option Nat}
    (e : c.query host type a = .ok c') : FSteps env c c' := by
  obtain ⟨o, h1, h2, h3⟩ := h.qFind host type
  cases o with
  | none =>
    cases a with
    | none =>
      unfold Core.query at e
      rw [h1] at e
      cases e
      exact .refl _
    | some cb =>
      rw [query_new h1] at e
      cases e
      exact .one (.newq h (h3 rfl) cb)
  | some q =>
    obtain ⟨x, hx, rfl, rfl⟩ := h2 q rfl
    unfold Core.query at e
    rw [h1] at e
    cases a with
    | none => exact .one (.endq h hx e)
    | some cb =>
      simp only [hx] at e
      cases e
      exact .one (.setCb h hx cb)

theorem CInv.register_fine {env : Env} : ∀ (l : List (Bytes × Nat × Nat)) {c c' : Core}, CInv c →
    c.register l = .ok c' → FSteps env c c'
  | [], c, c', _, e => by cases e; exact .refl _
  | (host, type, cb) :: l, c, c', h, e => by
    obtain ⟨c1, e1, s1, _⟩ := h.queryOn host type cb
    unfold Core.register at e
    rw [e1] at e
    exact (h.query_fine e1).trans (CInv.register_fine l s1.inv e)

theorem CInv.callAnswer_fine {env : Env} {c c' : Core} (h : CInv c) {q : Nat} {x : Query} {rr : Answer} {stop : Bool}
    (hx : c.qs q = some x) (hn : x.name = rr.name) (ht : typeFits x.type rr)
    (e : c.callAnswer env q rr = .ok (stop, c')) : FSteps env c c' := by
  have hn' : x.name = (c.seen rr).name := by rw [hn]; unfold Core.seen; split <;> rfl
  have ht' : typeFits x.type (c.seen rr) := by unfold Core.seen; split <;> exact ht
  have h1 := h.addAnswer hx hn' ht'
  have e2 : c.callAnswer env q rr =
      match ({ c with log := c.log ++ [.answer q x.cb (c.seen rr)] } : Core).register
        (env.answer (c.log ++ [.answer q x.cb (c.seen rr)])).reg with
      | .ok c' => .ok ((env.answer (c.log ++ [.answer q x.cb (c.seen rr)])).stop, c')
      | .ub => .ub
      | .hang => .hang := by
    unfold Core.callAnswer
    rw [hx]
    rfl
  rw [e2] at e
  split at e
  · rename_i e3
    cases e
    exact .step (.call h hx hn' ht') (h1.register_fine _ e3)
  · cases e
  · cases e

/-- The insertion of a new record, in its parts. -/
theorem insert_eq {env : Env} {c : Core} {r : Resource} {src : Addr}
    (hn : (c.rrs (bucket r.name lprime)).any (hit r) = false) : c.insert env r src =
    match c.qFind r.name r.type with
    | .ok q =>
      match q with
      | none => .ok (c.setChain (bucket r.name lprime)
          ({ rr := Core.newEntry r src (c.expiry r), q := q } :: c.cache (bucket r.name lprime)))
      | some q0 =>
        match (c.setChain (bucket r.name lprime)
          ({ rr := Core.newEntry r src (c.expiry r), q := q } :: c.cache (bucket r.name lprime))).callAnswer
            env q0 (Core.newEntry r src (c.expiry r)) with
        | .ok (stop, c) =>
          if stop then
            match (c.cache (bucket r.name lprime)).head? with
            | some { q := some q', .. } => c.qDone q'
            | _ => .ub
          else .ok c
        | .ub => .ub
        | .hang => .hang
    | .ub => .ub
    | .hang => .hang := by
  have hf : (c.cache (bucket r.name lprime)).findIdx? (fun e => e.rr.is r.name r.type && aMatch r e.rr) = none := by
    rw [List.findIdx?_eq_none_iff]
    rw [Core.rrs, List.any_map, List.any_eq_false] at hn
    intro e m
    have := hn e m
    simpa [Function.comp, hit] using this
  unfold Core.insert
  simp only [hf]
  rfl

theorem CInv.withEntry {c : Core} (h : CInv c) {e : Cached} {r : Resource} {src : Addr} (hr : r.WF)
    (hn : (c.rrs (bucket r.name lprime)).any (hit r) = false) (he : e.rr = Core.newEntry r src (c.expiry r))
    (h1 : ∀ q, e.q = some q → ∃ x, c.qs q = some x ∧ x.name = r.name ∧ x.type = r.type) :
    CInv (c.setChain (bucket r.name lprime) (e :: c.cache (bucket r.name lprime))) := by
  refine { h with cbucket := ?_, cq := ?_, cuniq := ?_ }
  · intro j e' m
    simp only [Core.setChain, upd] at m
    split at m
    · rename_i hj
      rcases List.mem_cons.mp m with rfl | m
      · rw [he, newEntry_name]
        exact hj.symm
      · exact hj ▸ h.cbucket _ e' m
    · exact h.cbucket j e' m
  · intro j e' q0 m hq0
    simp only [Core.setChain, upd] at m
    split at m
    · rcases List.mem_cons.mp m with rfl | m
      · obtain ⟨x, hx, e1, e2⟩ := h1 q0 hq0
        refine ⟨x, hx, ?_, .inl ?_⟩
        · rw [he, newEntry_name]
          exact e1
        · rw [he, newEntry_type]
          exact e2
      · exact h.cq _ e' q0 m hq0
    · exact h.cq j e' q0 m hq0
  · intro j
    simp only [Core.setChain, upd]
    split
    · rw [List.pairwise_cons]
      refine ⟨fun e' m hs => ?_, h.cuniq _⟩
      rw [he] at hs
      have := (hit_iff hr src (c.expiry r) e'.rr).mpr hs
      have h4 := List.any_eq_false.mp hn e'.rr (List.mem_map_of_mem m)
      exact h4 this
    · exact h.cuniq j

theorem CStep.fine {env : Env} {c c' : Core} (n : CStep env K c c') : FSteps env c c' := by
  cases n with
  | frame h => exact .one (.frame h)
  | ttls f h hf =>
    refine .one (.cut f h fun i e m => ?_)
    obtain ⟨e', m', h1, t, h2⟩ := (hf i).back e m
    exact ⟨e', m', by rw [h2], by rw [h2], h1⟩
  | query h _ e => exact h.query_fine e
  | reset h hx => exact .one (.reset h hx)
  | asked h hx => exact .one (.asked h hx)
  | @expire _ i k en h0 hk hd e =>
    obtain ⟨hf, h⟩ := erased h0 i k
    have he : ∀ q, en.q = some q → ∃ x, c.qs q = some x ∧ x.name = en.rr.name ∧ typeFits x.type en.rr :=
      fun q hq => h0.cq i en q (List.mem_of_getElem? hk) hq
    refine FSteps.step (.cut _ h0 hf) ?_
    unfold Core.qAnswer at e
    cases hq : en.q with
    | none =>
      rw [hq] at e
      cases e
      exact .refl _
    | some q =>
      rw [hq] at e
      obtain ⟨x, hx, hn, ht⟩ := he q hq
      obtain ⟨c1, evs, e1, s1, _⟩ := h.callAnswer env hx hn ht
      dsimp only at e
      rw [e1] at e
      have f1 := h.callAnswer_fine hx hn ht e1
      dsimp only at e
      split at e
      · obtain ⟨x1, hx1, _⟩ := s1.qs_ex hx
        exact f1.trans (.one (.endq s1.inv hx1 e))
      · cases e
        exact f1
  | @enter _ r src h hr hn e =>
    rw [insert_eq hn] at e
    obtain ⟨o, h1, h2, h3⟩ := h.qFind r.name r.type
    rw [h1] at e
    have h2' : ∀ q, ({ rr := Core.newEntry r src (c.expiry r), q := o } : Cached).q = some q →
        ∃ x, c.qs q = some x ∧ x.name = r.name ∧ x.type = r.type := h2
    have st := FStep.add (env := env) (e := ⟨Core.newEntry r src (c.expiry r), o⟩) h hr hn rfl h2 h3
    have hi := h.withEntry (e := ⟨Core.newEntry r src (c.expiry r), o⟩) hr hn rfl h2'
    cases o with
    | none =>
      cases e
      exact .one st
    | some q =>
      obtain ⟨x, hx, en, et⟩ := h2 q rfl
      dsimp only at e
      have hx' : (c.setChain (bucket r.name lprime) (⟨Core.newEntry r src (c.expiry r), some q⟩ ::
        c.cache (bucket r.name lprime))).qs q = some x := hx
      obtain ⟨c1, evs, e1, s1, _⟩ := hi.callAnswer env hx' (en.trans (newEntry_name r src (c.expiry r)).symm)
        (.inl (et.trans (newEntry_type r src (c.expiry r)).symm))
      rw [e1] at e
      have f1 := hi.callAnswer_fine hx' (en.trans (newEntry_name r src (c.expiry r)).symm)
        (.inl (et.trans (newEntry_type r src (c.expiry r)).symm)) e1
      refine .step st (f1.trans ?_)
      dsimp only at e
      split at e
      · split at e
        · rename_i q' hh
          obtain ⟨x', hx', _⟩ := s1.inv.cq (bucket r.name lprime) _ q' (List.mem_of_head? hh) rfl
          exact .one (.endq s1.inv hx' e)
        · cases e
      · cases e
        exact .refl _

theorem CSteps.fine {env : Env} {c c' : Core} (n : CSteps env K c c') : FSteps env c c' := by
  induction n with
  | refl => exact .refl _
  | step h _ ih => exact h.fine.trans ih

theorem FSteps.keep {env : Env} {P : Core → Prop} (hs : ∀ c c', P c → FStep env c c' → P c') {c c' : Core}
    (n : FSteps env c c') (h : P c) : P c' := by
  induction n with
  | refl => exact h
  | step s _ ih => exact ih (hs _ _ h s)

/-- An invariant of the fine steps holds in every state that can be reached. -/
theorem Reach.fine {env : Env} {P : Core → Prop} (h0 : ∀ cls frame now, P (newD cls frame now).c)
    (hs : ∀ c c', P c → FStep env c c' → P c') {d : D Ptrs} (h : Reach env d) : P d.c :=
  h.invariant h0 fun _ _ _ hp n => n.fine.keep hs hp

/-! ### Own addresses -/

/-- The list of own addresses is empty or one the system reported. -/
def LocalsOk (env : Env) (c : Core) : Prop := c.locals = [] ∨ ∃ k, env.ifaddrs k = some c.locals

theorem rest_locals {c c' : Core} (h : c'.rest = c.rest) : c'.locals = c.locals :=
  (congrArg Core.locals h : c'.rest.locals = c.rest.locals)

theorem rest_refreshed {c c' : Core} (h : c'.rest = c.rest) : c'.refreshed = c.refreshed :=
  (congrArg Core.refreshed h : c'.rest.refreshed = c.rest.refreshed)

theorem Reach.locals {env : Env} {d : D Ptrs} (h : Reach env d) : LocalsOk env d.c := by
  refine h.fine (fun _ _ _ => .inl rfl) fun c c' hp n => ?_
  cases n with
  | frame h =>
    rcases h.locals with e | e
    · unfold LocalsOk
      rw [e.1]
      exact hp
    · exact .inr e
  | endq h hx e =>
    obtain ⟨c1, e1, s1, _⟩ := h.qDone hx
    rw [e1] at e
    cases e
    unfold LocalsOk
    rw [rest_locals s1.rest]
    exact hp
  | _ => exact hp

/-- Once the list was read it is one the system reported. -/
theorem Reach.refreshed {env : Env} {d : D Ptrs} (h : Reach env d) :
    d.c.refreshed ≠ 0 → ∃ k, env.ifaddrs k = some d.c.locals := by
  refine h.fine (P := fun c => c.refreshed ≠ 0 → ∃ k, env.ifaddrs k = some c.locals) (fun _ _ _ h => absurd rfl h)
    fun c c' hp n => ?_
  cases n with
  | frame h =>
    rcases h.locals with e | e
    · rw [e.1, e.2]
      exact hp
    · exact fun _ => e
  | endq h hx e =>
    obtain ⟨c1, e1, s1, _⟩ := h.qDone hx
    rw [e1] at e
    cases e
    rw [rest_locals s1.rest, rest_refreshed s1.rest]
    exact hp
  | _ => exact hp

/-! ### Entries and their queries -/

/-- Every entry is connected to a query if one of exactly its name and type exists, unless a
query of any type of that name has ended. -/
def Linked (c : Core) : Prop :=
  ∀ i e q x, e ∈ c.cache i → c.qs q = some x → x.name = e.rr.name → x.type = e.rr.type →
    Event.unregistered e.rr.name 255 ∉ c.log → e.q.isSome

theorem Linked.step {env : Env} {c c' : Core} (hl : Linked c) (n : FStep env c c') : Linked c' := by
  cases n with
  | frame h =>
    intro i e q x he hx hn ht hu
    rw [h.cache] at he
    rw [h.qs] at hx
    obtain ⟨evs, hlog, _⟩ := h.log
    rw [hlog] at hu
    exact hl i e q x he hx hn ht fun m => hu (List.mem_append.mpr (.inl m))
  | cut f h hf =>
    intro i e q x he hx hn ht hu
    obtain ⟨e', he', f1, f2, f3⟩ := hf i e he
    rw [f3]
    exact hl i e' q x he' hx (hn.trans f1) (ht.trans f2) (by rw [← f1]; exact hu)
  | @add e0 r src h hr hn he h1 h2 =>
    intro i e q x m hx en et hu
    simp only [Core.setChain, upd] at m
    split at m
    · rename_i hi
      rcases List.mem_cons.mp m with rfl | m
      · cases hq : e.q with
        | some _ => rfl
        | none =>
          rw [he, newEntry_name] at en
          rw [he, newEntry_type] at et
          exact absurd ⟨en, et⟩ (h2 hq q x hx)
      · exact hl _ e q x m hx en et hu
    · exact hl i e q x m hx en et hu
  | call h hx hn ht =>
    intro i e q x he hx hn ht hu
    exact hl i e q x he hx hn ht fun m => hu (List.mem_append.mpr (.inl m))
  | @setCb q0 x0 h hx0 cb =>
    intro i e q x he hx hn ht hu
    have hu : Event.unregistered e.rr.name 255 ∉ c.log := fun m => hu (List.mem_append.mpr (.inl m))
    simp only [upd] at hx
    split at hx
    · cases hx
      exact hl i e q0 x0 he hx0 hn ht hu
    · exact hl i e q x he hx hn ht hu
  | @newq host type h hnew cb =>
    intro i e q x he hx hn ht hu
    have hu : Event.unregistered e.rr.name 255 ∉ c.log := fun m => hu (List.mem_append.mpr (.inl m))
    obtain ⟨e', he', f1, f2⟩ := assoc_mem (c := c) (host := host) (type := type) (q := some c.nextq) he
    rcases f2 with ⟨f2, _⟩ | ⟨rfl, f3⟩
    · rw [f2]
      rfl
    · simp only [Core.addQuery, upd] at hx
      split at hx
      · cases hx
        have hb : i = bucket host lprime := by
          rw [← h.cbucket i e he', ← hn]
        exact absurd ⟨hn.symm, .inl ht⟩ (f3 hb)
      · exact hl i e q x he' hx hn ht hu
  | @endq _ q0 x0 h hx0 e =>
    intro i e1 q x he hx hn ht hu
    obtain ⟨c1, e2, s1, hqs, hlog, _⟩ := h.qDone hx0
    have e2' := e2
    rw [e] at e2
    cases e2
    rw [hqs] at hx
    rw [hlog] at hu
    simp only [List.mem_append, List.mem_singleton, Event.unregistered.injEq, not_or] at hu
    have hcache : c'.cache = (c.assoc x0.name x0.type none).cache := by
      unfold Core.qDone at e
      rw [hx0] at e
      dsimp only at e
      split at e
      · cases e
        rfl
      · cases e
    rw [hcache] at he
    obtain ⟨e', he', f1, f2⟩ := assoc_mem he
    simp only [upd] at hx
    split at hx
    · cases hx
    · rename_i hne
      rcases f2 with ⟨_, f3, f4⟩ | ⟨rfl, f3⟩
      · rcases f4 with f4 | f4
        · exact absurd (h.quniq q q0 x x0 hx hx0 (hn.trans f3) (ht.trans f4.symm)) hne
        · exact absurd ⟨f3, f4.symm⟩ hu.2
      · exact hl i e1 q x he' hx hn ht hu.1
  | @reset q0 x0 h hx0 =>
    intro i e q x he hx hn ht hu
    simp only [Core.resetQ, upd] at hx
    split at hx
    · cases hx
      exact hl i e q0 x0 he hx0 hn ht hu
    · exact hl i e q x he hx hn ht hu
  | @asked q0 x0 h hx0 =>
    intro i e q x he hx hn ht hu
    simp only [Core.askedQ, upd] at hx
    split at hx
    · cases hx
      exact hl i e q0 x0 he hx0 hn ht hu
    · exact hl i e q x he hx hn ht hu

theorem Reach.linked {env : Env} {d : D Ptrs} (h : Reach env d) : Linked d.c :=
  h.fine (fun _ _ _ i e q x he => by cases he) fun _ _ hp n => hp.step n

/-! ### Callbacks that end their query -/

theorem split_append {α : Type} {l evs pre post : List α} {a : α} (h : l ++ evs = pre ++ a :: post) :
    (∃ k, l = pre ++ a :: k ∧ post = k ++ evs) ∨ ∃ k, pre = l ++ k ∧ evs = k ++ a :: post := by
  rcases List.append_eq_append_iff.mp h with ⟨k, h1, h2⟩ | ⟨k, h1, h2⟩
  · exact .inr ⟨k, h1, h2⟩
  · cases k with
    | nil => exact .inr ⟨[], by simpa using h1.symm, by simpa using h2.symm⟩
    | cons b k =>
      simp only [List.cons_append, List.cons.injEq] at h2
      obtain ⟨rfl, h2⟩ := h2
      exact .inl ⟨k, h1, h2⟩

theorem answersOf_mem {evs : List Event} {q cb : Nat} {rr : Answer} (m : .answer q cb rr ∈ evs) :
    rr ∈ answersOf evs := List.mem_filterMap.mpr ⟨_, m, rfl⟩

theorem answersOf_reg (l : List (Bytes × Nat × Nat)) : answersOf (regEvents l) = [] := by
  induction l with
  | nil => rfl
  | cons a l ih =>
    have : regEvents (a :: l) = .registered a.1 a.2.1 a.2.2 :: regEvents l := rfl
    rw [this]
    exact ih

theorem StopsOk.quiet {env : Env} {log evs : List Event} (h : StopsOk env log) (hq : answersOf evs = []) :
    StopsOk env (log ++ evs) := by
  intro pre q cb rr post e hs hr
  rcases split_append e with ⟨k, h1, h2⟩ | ⟨k, h1, h2⟩
  · obtain ⟨t, post', e1, e2, e3⟩ := h pre q cb rr k h1 hs hr
    refine ⟨t, post' ++ evs, e1, e2, ?_⟩
    rw [h2, e3]
    simp
  · have : rr ∈ answersOf evs := answersOf_mem (q := q) (cb := cb) (by rw [h2]; simp)
    rw [hq] at this
    cases this

theorem StopsOk.answer {env : Env} {log evs : List Event} {q cb : Nat} {rr : Answer} (h : StopsOk env log)
    (hq : answersOf evs = []) (ha : (env.answer (log ++ [.answer q cb rr])).stop = true →
      (∀ cb', (rr.name, 255, cb') ∉ (env.answer (log ++ [.answer q cb rr])).reg) →
      ∃ t post', typeFits t rr ∧ callback log rr.name t = some cb ∧
        evs = regEvents (env.answer (log ++ [.answer q cb rr])).reg ++ .unregistered rr.name t :: post') :
    StopsOk env (log ++ .answer q cb rr :: evs) := by
  intro pre q' cb' rr' post e hs hr
  rcases split_append e with ⟨k, h1, h2⟩ | ⟨k, h1, h2⟩
  · obtain ⟨t, post', e1, e2, e3⟩ := h pre q' cb' rr' k h1 hs hr
    refine ⟨t, post' ++ .answer q cb rr :: evs, e1, e2, ?_⟩
    rw [h2, e3, List.append_assoc, List.cons_append]
  · cases k with
    | nil =>
      simp only [List.nil_append, List.cons.injEq, Event.answer.injEq] at h2
      obtain ⟨⟨rfl, rfl, rfl⟩, rfl⟩ := h2
      rw [List.append_nil] at h1
      subst h1
      exact ha hs hr
    | cons a k =>
      simp only [List.cons_append, List.cons.injEq] at h2
      have : rr' ∈ answersOf evs := answersOf_mem (q := q') (cb := cb') (by rw [h2.2]; simp)
      rw [hq] at this
      cases this

theorem register_log : ∀ (l : List (Bytes × Nat × Nat)) {c c' : Core}, CInv c →
    c.register l = .ok c' → c'.log = c.log ++ regEvents l := by
  intro l c c' h e
  obtain ⟨c1, e1, _, l1⟩ := h.register l
  rw [e1] at e
  cases e
  exact l1

/-- What a callback and the end of the query it asks for add to the history. -/
theorem StopsOk.call {env : Env} {c c1 c' : Core} {q : Nat} {x : Query} {rr : Answer} (h : StopsOk env c.log)
    (hi : CInv c) (hx : c.qs q = some x) (hn : x.name = rr.name) (ht : typeFits x.type rr)
    (e1 : c.callAnswer env q rr = .ok ((env.answer (c.log ++ [.answer q x.cb (c.seen rr)])).stop, c1))
    (e : if (env.answer (c.log ++ [.answer q x.cb (c.seen rr)])).stop = true then
        ∃ q', c1.qDone q' = .ok c' ∧ (∃ x', c1.qs q' = some x') ∧
          ((∀ cb', (rr.name, 255, cb') ∉ (env.answer (c.log ++ [.answer q x.cb (c.seen rr)])).reg) → q' = q)
      else c1 = c') : StopsOk env c'.log := by
  have hn' : (c.seen rr).name = rr.name := by unfold Core.seen; split <;> rfl
  have ht' : typeFits x.type (c.seen rr) := by unfold Core.seen; split <;> exact ht
  have hcb : callback c.log (c.seen rr).name x.type = some x.cb := by
    rw [hn', ← hn]
    exact ((hi.tcb _ _ _).mpr ⟨q, x, hx, rfl, rfl, rfl⟩)
  obtain ⟨c2, evs, e2, s2, l2, hevs⟩ := hi.callAnswer env hx hn ht
  rw [e1] at e2
  simp only [Res.ok.injEq, Prod.mk.injEq, true_and] at e2
  subst e2
  have hevs' : evs = regEvents (env.answer (c.log ++ [.answer q x.cb (c.seen rr)])).reg := hevs
  split at e
  · obtain ⟨q', e3, ⟨x', hx'⟩, hq'⟩ := e
    obtain ⟨c3, e4, s4, _, l4, _⟩ := s2.inv.qDone hx'
    rw [e3] at e4
    cases e4
    rw [l4, l2, List.append_assoc, List.cons_append]
    refine h.answer ?_ fun _ hr => ?_
    · rw [answersOf_append, hevs', answersOf_reg]
      rfl
    · rw [hn'] at hr
      have := hq' hr
      subst this
      obtain ⟨x2, hx2, z1, z2⟩ := s2.qs_ex hx
      rw [hx2] at hx'
      cases hx'
      refine ⟨x.type, [], ht', hcb, ?_⟩
      rw [hevs', z1, z2, hn, hn']
  · rename_i hs
    subst e
    rw [l2]
    refine h.answer (by rw [hevs', answersOf_reg]) fun hs' => absurd hs' hs

theorem StopsOk.step {env : Env} {c c' : Core} (h : StopsOk env c.log) (n : CStep env K c c') : StopsOk env c'.log := by
  cases n with
  | frame hf =>
    obtain ⟨evs, e, hq⟩ := hf.log
    rw [e]
    refine h.quiet ?_
    rw [answersOf, List.filterMap_eq_nil_iff]
    intro a m
    have := hq a m
    cases a <;> first | rfl | cases this
  | ttls f _ _ => exact h
  | @query _ host type a hi _ e =>
    cases a with
    | some cb =>
      obtain ⟨c1, e1, s1, l1⟩ := hi.queryOn host type cb
      rw [e] at e1
      cases e1
      rw [l1]
      exact h.quiet rfl
    | none =>
      obtain ⟨o, h1, h2, h3⟩ := hi.qFind host type
      unfold Core.query at e
      rw [h1] at e
      cases o with
      | none =>
        cases e
        exact h
      | some q =>
        obtain ⟨x, hx, _⟩ := h2 q rfl
        obtain ⟨c3, e4, s4, _, l4, _⟩ := hi.qDone hx
        dsimp only at e
        rw [e4] at e
        cases e
        rw [l4]
        exact h.quiet rfl
  | @expire _ i k en h0 hk hd e =>
    obtain ⟨_, hi⟩ := erased h0 i k
    have he : ∀ q, en.q = some q → ∃ x, c.qs q = some x ∧ x.name = en.rr.name ∧ typeFits x.type en.rr :=
      fun q hq => h0.cq i en q (List.mem_of_getElem? hk) hq
    unfold Core.qAnswer at e
    cases hq : en.q with
    | none =>
      rw [hq] at e
      cases e
      exact h
    | some q =>
      rw [hq] at e
      obtain ⟨x, hx, hn, ht⟩ := he q hq
      obtain ⟨c1, evs, e1, s1, _⟩ := hi.callAnswer env hx hn ht
      dsimp only at e
      rw [e1] at e
      dsimp only at e
      refine StopsOk.call (c := { c with cache := upd c.cache i ((c.cache i).eraseIdx k) }) h hi hx hn ht e1 (c' := c') ?_
      split
      · rename_i hs
        rw [if_pos hs] at e
        obtain ⟨x1, hx1, _⟩ := s1.qs_ex hx
        exact ⟨q, e, ⟨x1, hx1⟩, fun _ => rfl⟩
      · rename_i hs
        rw [if_neg hs] at e
        cases e
        rfl
  | @enter _ r src hi hr hn e =>
    rw [insert_eq hn] at e
    obtain ⟨o, h1, h2, h3⟩ := hi.qFind r.name r.type
    rw [h1] at e
    have h2' : ∀ q, ({ rr := Core.newEntry r src (c.expiry r), q := o } : Cached).q = some q →
        ∃ x, c.qs q = some x ∧ x.name = r.name ∧ x.type = r.type := h2
    have hi' := hi.withEntry (e := ⟨Core.newEntry r src (c.expiry r), o⟩) hr hn rfl h2'
    cases o with
    | none =>
      cases e
      exact h
    | some q =>
      obtain ⟨x, hx, en, et⟩ := h2 q rfl
      dsimp only at e
      generalize hc0 : c.setChain (bucket r.name lprime) (⟨Core.newEntry r src (c.expiry r), some q⟩ ::
        c.cache (bucket r.name lprime)) = c0 at e hi'
      have hx' : c0.qs q = some x := by rw [← hc0]; exact hx
      have hlog : c0.log = c.log := by rw [← hc0]; rfl
      have hch : (c0.cache (bucket r.name lprime))[0]? = some ⟨Core.newEntry r src (c.expiry r), some q⟩ := by
        rw [← hc0]
        simp [Core.setChain]
      have ht : typeFits x.type (Core.newEntry r src (c.expiry r)) := .inl (et.trans (newEntry_type r src _).symm)
      obtain ⟨c1, evs, e1, s1, _⟩ := hi'.callAnswer env hx' (en.trans (newEntry_name r src (c.expiry r)).symm) ht
      rw [e1] at e
      dsimp only at e
      rw [← hlog] at h
      refine h.call hi' hx' (en.trans (newEntry_name r src (c.expiry r)).symm) ht e1 (c' := c') ?_
      split
      · rename_i hs
        rw [if_pos hs] at e
        split at e
        · rename_i e' q' hh
          obtain ⟨x', hx2, _⟩ := s1.inv.cq (bucket r.name lprime) _ q' (List.mem_of_head? hh) rfl
          refine ⟨q', e, ⟨x', hx2⟩, fun hr' => ?_⟩
          have e2 : c0.callAnswer env q (Core.newEntry r src (c.expiry r)) =
              match ({ c0 with log := c0.log ++ [.answer q x.cb (c0.seen (Core.newEntry r src (c.expiry r)))] } : Core).register
                (env.answer (c0.log ++ [.answer q x.cb (c0.seen (Core.newEntry r src (c.expiry r)))])).reg with
              | .ok c' => .ok ((env.answer (c0.log ++ [.answer q x.cb (c0.seen (Core.newEntry r src (c.expiry r)))])).stop, c')
              | .ub => .ub
              | .hang => .hang := by
            unfold Core.callAnswer
            rw [hx']
            rfl
          rw [e2] at e1
          split at e1
          · rename_i c2 e3
            simp only [Res.ok.injEq, Prod.mk.injEq, true_and] at e1
            subst e1
            have hadd := hi'.addAnswer (rr := c0.seen (Core.newEntry r src (c.expiry r))) hx'
              (by unfold Core.seen; split <;> exact en.trans (newEntry_name r src (c.expiry r)).symm)
              (by unfold Core.seen; split <;> exact ht)
            have := CInv.register_entry (i := bucket r.name lprime) (k := 0) (q := q) _ hadd e3 hch rfl hx'
              (et.trans (newEntry_type r src _).symm) (by
                intro t cb' m et'
                subst et'
                exact hr' cb' m)
            rw [← List.head?_eq_getElem?, hh] at this
            simp only [Option.some.injEq, Cached.mk.injEq] at this
            exact this.2
          · cases e1
          · cases e1
        · cases e
      · rename_i hs
        rw [if_neg hs] at e
        cases e
        rfl
  | reset _ _ => exact h
  | asked _ _ => exact h

theorem Reach.stops {env : Env} {d : D Ptrs} (h : Reach env d) : StopsOk env d.c.log := by
  refine h.invariant (P := fun c => StopsOk env c.log) (fun _ _ _ => ?_) fun _ _ _ hp n => hp.step n
  intro pre q cb rr post e
  have : (pre ++ Event.answer q cb rr :: post).length = 0 := by rw [← e]; rfl
  simp at this

end Mdns
