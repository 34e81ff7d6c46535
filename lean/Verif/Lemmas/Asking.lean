import Verif.Lemmas.Clock
import Verif.Props.Cache
import Verif.Spec.Questions

/-!
# When questions are asked
-/

namespace Mdns

/-! ### The message the questions go into -/

/-- Nothing was sent: the message is empty. -/
def Blank (s : OSt) : Prop := s.ret = 0 → s.m = {} ∧ s.seen = []

theorem ROut.blank {w : W} {s t : OSt} (n : ROut w s t) (h : Blank s) : Blank t := by
  induction n with
  | empty => exact h
  | full => exact h
  | skip _ _ _ _ _ _ ih => exact ih h
  | send _ _ _ _ _ _ _ ih => exact ih fun e => absurd e (Nat.succ_ne_zero _)
  | bye _ _ _ _ _ _ _ ih => exact ih fun e => absurd e (Nat.succ_ne_zero _)

theorem PubL.blank {pre suf : List Nat} {s t : OSt} (n : PubL pre suf s t) (h : Blank s) : Blank t := by
  induction n with
  | done => exact h
  | full => exact h
  | keep _ _ _ _ _ _ _ ih => exact ih fun e => absurd e (Nat.succ_ne_zero _)
  | last _ _ _ _ _ _ _ ih => exact ih fun e => absurd e (Nat.succ_ne_zero _)
  | bye _ _ _ _ _ _ ih => exact ih fun e => absurd e (Nat.succ_ne_zero _)

theorem PubOpt.blank {s t : OSt} (n : PubOpt s t) (h : Blank s) : Blank t := by
  cases n with
  | no => exact h
  | yes _ _ _ n => exact n.blank h

theorem PauseOpt.blank {s t : OSt} (n : PauseOpt s t) (h : Blank s) : Blank t := by
  cases n with
  | no => exact h
  | yes _ _ n => exact n.blank h

theorem ROut.qr {w : W} {s t : OSt} (n : ROut w s t) : t.m.qr = s.m.qr := by
  induction n with
  | empty => rfl
  | full => rfl
  | skip _ _ _ _ _ _ ih => exact ih
  | send _ _ _ _ _ _ _ ih => exact ih
  | bye _ _ _ _ _ _ _ ih => exact ih

theorem PubL.qr {pre suf : List Nat} {s t : OSt} (n : PubL pre suf s t) : t.m.qr = s.m.qr := by
  induction n with
  | done => rfl
  | full => rfl
  | keep _ _ _ _ _ _ _ ih => exact ih
  | last _ _ _ _ _ _ _ ih => exact ih
  | bye _ _ _ _ _ _ ih => exact ih

theorem PubOpt.qr {s t : OSt} (n : PubOpt s t) : t.m.qr = s.m.qr := by
  cases n with
  | no => rfl
  | yes _ _ _ n => exact n.qr

theorem PauseOpt.qr {s t : OSt} (n : PauseOpt s t) : t.m.qr = s.m.qr := by
  cases n with
  | no => rfl
  | yes _ _ n => exact n.qr

theorem AddL.qr {c : Core} {J : Nat → Prop} {m m' : Out} {s s' : List Nat} (n : AddL c J m s m' s') : m'.qr = m.qr := by
  induction n with
  | nil => rfl
  | add _ _ _ _ _ ih => exact ih

theorem ProbeA.blank {pre suf : List Nat} {s t : OSt} (n : ProbeA pre suf s t) :
    ∃ more, t.l.q .probing = pre ++ more ∧ (more = [] → t.m = s.m) ∧ t.ret = s.ret := by
  induction n with
  | done h hq => exact ⟨[], hq, fun _ => rfl, rfl⟩
  | verified _ _ _ _ _ ih => exact ih
  | ask _ _ _ _ _ ih =>
    obtain ⟨more, e, _, er⟩ := ih
    exact ⟨_ :: more, by rw [e, List.append_assoc]; rfl, fun h => absurd h (by simp), er⟩

theorem ProbeB.blank {pre suf : List Nat} {s t : OSt} (n : ProbeB pre suf s t) :
    s.ret ≤ t.ret ∧ (t.ret = s.ret → suf = [] ∧ t.m = s.m) := by
  induction n with
  | done h hq => exact ⟨Nat.le_refl _, fun _ => ⟨rfl, rfl⟩⟩
  | propose _ _ _ _ _ ih =>
    have := ih.1
    simp only at this
    exact ⟨by omega, fun h => by omega⟩

theorem ProbeOpt.blank {s t : OSt} (n : ProbeOpt s t) (hs : s.ret = 0) (ht : t.ret = 0) : t.m = s.m := by
  cases n with
  | no => rfl
  | @yes u t _ _ n n' =>
    obtain ⟨more, e, em, er⟩ := n.blank
    have h := n'.blank.2 (by rw [er, hs]; exact ht)
    rw [h.1] at e
    have e : more = [] := by simpa using e.symm
    exact h.2.trans (em e)

/-- The message questions go into. -/
def blankQ : Out := { qr := false, aa := false }

/-- What `mdnsd_out` does about questions. -/
inductive Asking (env : Env) (c : Core) (ret : Nat) (m : Out) (c' : Core) : Prop
  /-- something else is sent -/
  | other (e : c'.recfree = c.recfree) (h : m.qr = true ∨ m.ops = [] ∨ ∃ r, (.ns, r) ∈ m.tags) (hr : ret = 0 → c.shutdown = true)
  | asking {c2 c3 : Core} (e : c2.recfree = c.recfree) (nq : QuestOpt env blankQ c2 ret m c3) (ng : GcOpt env c3 c')

theorem OutMsg.asking {env : Env} {c : Core} {l : Lists} {ret : Nat} {m : Out} {to : Addr} {c' : Core} {l' : Lists}
    (n : OutMsg env c l ret m to c' l') : Asking env c ret m c' := by
  cases n with
  | @unicast u us x _ seen hu hx na => exact .other rfl (.inl (na.qr.trans rfl)) (by simp)
  | @shutdown s1 s2 hu n1 n2 hs => exact .other (n2.recfree.trans n1.recfree) (.inl (n2.qr.trans n1.qr)) fun _ => hs
  | @normal s1 s2 _ _ _ _ hu n1 n2 _ n3 =>
    have b := n2.blank (n1.blank fun _ => ⟨rfl, rfl⟩)
    have q : s2.m.qr = true := n2.qr.trans n1.qr
    have e0 := n2.recfree.trans n1.recfree
    cases n3 with
    | @answers s3 _ _ np na hr => exact .other (np.recfree.trans e0) (.inl (na.qr.trans (np.qr.trans q))) fun h => absurd h hr
    | @probes s3 s4 m0 seen np na hr nb hr2 =>
      refine .other (nb.recfree.trans (np.recfree.trans e0)) (.inr (.inr ?_)) fun h => absurd h hr2
      obtain ⟨rs, hn, e, er⟩ := nb.tags
      have er : s4.ret = s3.ret + rs.length := er
      cases rs with
      | nil => exact absurd (er.trans hr) hr2
      | cons r rs => exact ⟨r, by rw [e]; simp⟩
    | @questions s3 s4 m0 seen _ _ _ _ np na hr nb hr2 nq ng =>
      obtain ⟨b1, b2⟩ := np.blank b hr
      rw [b2] at na
      have := na.none
      subst this
      have hb : s4.m = blankQ := by
        rw [nb.blank hr hr2, b1]
        rfl
      rw [hb] at nq
      exact .asking (nb.recfree.trans (np.recfree.trans e0)) nq ng

/-! ### Queries while nothing is asked -/

/-- Queries may be registered and ended, but no question is asked. -/
structure Tends (c c' : Core) (evs : List Event) : Prop where
  log : c'.log = c.log ++ evs
  kept : ∀ q x, c.qs q = some x → (∃ cb, c'.qs q = some { x with cb := cb }) ∨
    c'.qs q = none ∧ Event.unregistered x.name x.type ∈ evs
  new : ∀ q x, c'.qs q = some x → (∃ cb, c.qs q = some { x with cb := cb }) ∨
    c.qs q = none ∧ c.nextq ≤ q ∧ x.nexttry = c.now.sec ∧ x.tries = 0 ∧ c'.checkqlist = c.now.sec
  chk : c'.checkqlist = c.checkqlist ∨ c'.checkqlist = c.now.sec
  nextq : c.nextq ≤ c'.nextq
  now : c'.now = c.now
  exp : c'.expireall = c.expireall

theorem Cbs.tends {c c' : Core} {evs : List Event} (h : Cbs c c' evs) : Tends c c' evs :=
  ⟨h.log, h.kept, h.new, h.chk, h.nextq, h.now, (congrArg Core.expireall h.rest : c'.rest.expireall = c.rest.expireall)⟩

theorem Tends.trans {a b c : Core} {e1 e2 : List Event} (ha : CInv a) (h : Tends a b e1) (h' : Tends b c e2) :
    Tends a c (e1 ++ e2) where
  log := by rw [h'.log, h.log, List.append_assoc]
  kept q x hx := by
    rcases h.kept q x hx with ⟨cb, hx1⟩ | ⟨hx1, m⟩
    · rcases h'.kept q _ hx1 with ⟨cb', hx2⟩ | ⟨hx2, m⟩
      · exact .inl ⟨cb', hx2⟩
      · exact .inr ⟨hx2, by simp only [List.mem_append]; exact .inr m⟩
    · refine .inr ⟨?_, by simp [m]⟩
      cases hq : c.qs q with
      | none => rfl
      | some y =>
        rcases h'.new q y hq with ⟨cb, hy⟩ | ⟨_, hb, _⟩
        · rw [hx1] at hy
          exact absurd hy (by simp)
        · have := ha.qbound q x hx
          have := h.nextq
          omega
  new q x hx := by
    rcases h'.new q x hx with ⟨cb, hx1⟩ | ⟨hx1, e0, e1, e2, e3⟩
    · rcases h.new q _ hx1 with ⟨cb', hx2⟩ | ⟨hx2, e0, e1, e2, e3⟩
      · exact .inl ⟨cb', hx2⟩
      · refine .inr ⟨hx2, e0, e1, e2, ?_⟩
        rcases h'.chk with e | e
        · rw [e, e3]
        · rw [e, h.now]
    · rw [h.now] at e1 e3
      refine .inr ⟨?_, Nat.le_trans h.nextq e0, e1, e2, e3⟩
      cases hq : a.qs q with
      | none => rfl
      | some y =>
        have := ha.qbound q y hq
        have := h.nextq
        omega
  chk := by
    rcases h'.chk with e | e
    · rw [e]; exact h.chk
    · rw [e, h.now]; exact .inr rfl
  nextq := Nat.le_trans h.nextq h'.nextq
  now := h'.now.trans h.now
  exp := h'.exp.trans h.exp

/-- Nothing happens to the queries, and the clock stands. -/
structure Still (c c' : Core) (evs : List Event) : Prop where
  log : c'.log = c.log ++ evs
  quiet : ∀ e ∈ evs, e.quiet
  qs : c'.qs = c.qs
  nextq : c'.nextq = c.nextq
  chk : c'.checkqlist = c.checkqlist
  cache : c'.cache = c.cache
  now : c'.now = c.now
  exp : c'.expireall = c.expireall

theorem Still.tends {c c' : Core} {evs : List Event} (h : Still c c' evs) : Tends c c' evs where
  log := h.log
  kept q x hx := .inl ⟨x.cb, by rw [h.qs, hx]⟩
  new q x hx := .inl ⟨x.cb, by rw [h.qs] at hx; rw [hx]⟩
  chk := .inl h.chk
  nextq := by rw [h.nextq]; exact Nat.le_refl _
  now := h.now
  exp := h.exp

theorem Still.trans {a b c : Core} {e1 e2 : List Event} (h : Still a b e1) (h' : Still b c e2) : Still a c (e1 ++ e2) where
  log := by rw [h'.log, h.log, List.append_assoc]
  quiet e m := by
    rcases List.mem_append.mp m with m | m
    · exact h.quiet e m
    · exact h'.quiet e m
  qs := h'.qs.trans h.qs
  nextq := h'.nextq.trans h.nextq
  chk := h'.chk.trans h.chk
  cache := h'.cache.trans h.cache
  now := h'.now.trans h.now
  exp := h'.exp.trans h.exp

theorem Still.recfree {c c' : Core} (e : c'.recfree = c.recfree) : Still c c' [] where
  log := by rw [recfree_log e]; simp
  quiet _ m := by cases m
  qs := (congrArg Core.qs e : c'.recfree.qs = c.recfree.qs)
  nextq := (congrArg Core.nextq e : c'.recfree.nextq = c.recfree.nextq)
  chk := (congrArg Core.checkqlist e : c'.recfree.checkqlist = c.recfree.checkqlist)
  cache := (congrArg Core.cache e : c'.recfree.cache = c.recfree.cache)
  now := recfree_now e
  exp := (congrArg Core.expireall e : c'.recfree.expireall = c.recfree.expireall)

theorem Still.refl (c : Core) : Still c c [] := .recfree rfl

theorem Still.heard (c : Core) {evs : List Event} (h : ∀ e ∈ evs, e.quiet) : Still c (c.heard evs) evs :=
  ⟨rfl, h, rfl, rfl, rfl, rfl, rfl, rfl⟩

theorem Locals.still {env : Env} {c c' : Core} (h : Locals env c c') : Still c c' [] := by
  obtain ⟨a, b, n, rfl, h⟩ := h
  exact { Still.refl c with }

theorem AnsL.still {env : Env} {src : Addr} {q : Question} {an : List Resource} {rs : List Nat} {s t : ISt}
    (n : AnsL env src q an rs s t) : ∃ evs, Still s.c t.c evs := by
  induction n with
  | done h => exact ⟨_, .refl _⟩
  | quiet _ _ _ hl _ _ ih =>
    obtain ⟨evs, ih⟩ := ih
    exact ⟨_, hl.still.trans ih⟩
  | @conflict r _ _ _ x c1 _ _ _ hl _ _ ih =>
    obtain ⟨evs, ih⟩ := ih
    have h1 := Still.heard c1 (evs := [.conflict r x.rr.name x.rr.type]) (by simp [Event.quiet])
    exact ⟨_, (hl.still.trans h1).trans ((Still.recfree (c := c1.heard [.conflict r x.rr.name x.rr.type]) (c' := (c1.heard [.conflict r x.rr.name x.rr.type]).dropRec r x) rfl).trans ih)⟩
  | known _ _ _ he _ _ ih =>
    obtain ⟨evs, ih⟩ := ih
    exact ⟨_, (Still.heard _ (quiet_received he)).trans ih⟩
  | send _ _ _ he _ _ ih =>
    obtain ⟨evs, ih⟩ := ih
    exact ⟨_, ((Still.heard _ (quiet_received he)).trans (.recfree (sendSt_recfree _ _ _ _))).trans ih⟩

theorem InQ.still {env : Env} {m : Msg} {src : Addr} {q : Question} {did did' : Bool} {c c' : Core} {l l' : Lists}
    (n : InQ env m src q did c l did' c' l') : ∃ evs, Still c c' evs := by
  cases n with
  | none _ => exact ⟨_, .refl _⟩
  | disco _ _ _ n =>
    exact ⟨_, Still.trans (b := { c with disco := true }) (e1 := []) { Still.refl c with } (.recfree n.recfree)⟩
  | multi _ _ _ n _ => exact n.still
  | uni _ _ _ n _ =>
    obtain ⟨evs, h⟩ := n.still
    exact ⟨_, h.trans (.recfree rfl)⟩

theorem InQs.still {env : Env} {m : Msg} {src : Addr} {qs : List Question} {did : Bool} {c c' : Core} {l l' : Lists}
    (n : InQs env m src qs did c l c' l') : ∃ evs, Still c c' evs := by
  induction n with
  | nil => exact ⟨_, .refl _⟩
  | cons _ h _ ih =>
    obtain ⟨e1, h1⟩ := h.still
    obtain ⟨e2, h2⟩ := ih
    exact ⟨_, h1.trans h2⟩

theorem received_still (c : Core) (a : Resource) : ∃ evs, Still c (c.received a) evs :=
  ⟨_, .heard _ fun e m => by
    split at m
    · rw [List.mem_singleton] at m
      subst m
      trivial
    · cases m⟩

/-- The cached entries have names and types of entries there were, or of an answer. -/
structure Gets (c c' : Core) (as : List Resource) : Prop where
  src : ∀ i, ∀ a ∈ c'.rrs i, (∃ b ∈ c.rrs i, b.name = a.name ∧ b.type = a.type) ∨ ∃ r ∈ as, r.name = a.name ∧ r.type = a.type
  ttl : ∀ i, ∀ a ∈ c'.rrs i, a ∈ c.rrs i ∨ c'.now.sec + 8 ≤ a.ttl

theorem Gets.trans {a b c : Core} {as bs : List Resource} (h : Gets a b as) (h' : Gets b c bs) (hn : c.now = b.now) :
    Gets a c (as ++ bs) where
  src i x m := by
    rcases h'.src i x m with ⟨y, my, e1, e2⟩ | ⟨r, mr, e⟩
    · rcases h.src i y my with ⟨z, mz, f1, f2⟩ | ⟨r, mr, f1, f2⟩
      · exact .inl ⟨z, mz, f1.trans e1, f2.trans e2⟩
      · exact .inr ⟨r, by simp [mr], f1.trans e1, f2.trans e2⟩
    · exact .inr ⟨r, by simp [mr], e⟩
  ttl i x m := by
    rcases h'.ttl i x m with m | m
    · rw [hn]
      exact h.ttl i x m
    · exact .inr m

theorem Gets.sub {c c' : Core} {as : List Resource} (h : ∀ i, ∀ a ∈ c'.rrs i, a ∈ c.rrs i) : Gets c c' as :=
  ⟨fun i a m => .inl ⟨a, h i a m, rfl, rfl⟩, fun i a m => .inl (h i a m)⟩

theorem Gets.same {c c' : Core} {as : List Resource} (e : ∀ i, c'.rrs i = c.rrs i) : Gets c c' as :=
  .sub fun i a m => by rw [← e]; exact m

theorem Still.rrs {c c' : Core} {evs : List Event} (h : Still c c' evs) (i : Nat) : c'.rrs i = c.rrs i := by
  unfold Core.rrs
  rw [h.cache]

theorem Still.gets {c c' : Core} {evs : List Event} (h : Still c c' evs) (as : List Resource) : Gets c c' as := .same h.rrs

theorem Removed.gets {env : Env} {i : Nat} {p : Answer → Bool} {c c' : Core} {evs : List Event}
    (h : Removed env i p c c' evs) (as : List Resource) : Gets c c' as := by
  refine .sub fun j a m => ?_
  by_cases e : j = i
  · subst e
    rw [h.rrs] at m
    exact (List.mem_filter.mp m).1
  · rw [h.other j e] at m
    exact m

theorem Entered.gets {env : Env} {r : Resource} {src : Addr} {c c' : Core} {evs : List Event}
    (h : Entered env r src c c' evs) (hn : c'.now = c.now) : Gets c c' [r] := by
  have hx : c'.now.sec + 8 ≤ c.expiry r := by
    rw [hn]
    unfold Core.expiry
    omega
  have hnew : (c'.rrs (bucket r.name lprime) = Core.newEntry r src (c.expiry r) :: c.rrs (bucket r.name lprime)) →
      (∀ j, j ≠ bucket r.name lprime → c'.rrs j = c.rrs j) → Gets c c' [r] := by
    intro h1 h2
    constructor <;> intro i a m <;> by_cases e : i = bucket r.name lprime
    · subst e
      rw [h1] at m
      rcases List.mem_cons.mp m with rfl | m
      · exact .inr ⟨r, by simp, (newEntry_name ..).symm, (newEntry_type ..).symm⟩
      · exact .inl ⟨a, m, rfl, rfl⟩
    · rw [h2 i e] at m
      exact .inl ⟨a, m, rfl, rfl⟩
    · subst e
      rw [h1] at m
      rcases List.mem_cons.mp m with rfl | m
      · right
        rw [newEntry_ttl]
        exact hx
      · exact .inl m
    · rw [h2 i e] at m
      exact .inl m
  cases h with
  | goodbye _ _ h => exact h.gets _
  | nothing _ _ h => subst h; exact .same fun _ => rfl
  | insert _ h =>
    cases h with
    | refresh _ h =>
      subst h
      constructor <;> intro i a m <;> by_cases e : i = bucket r.name lprime
      · left
        subst e
        rw [setChain_rrs, List.map_map] at m
        obtain ⟨en, me, rfl⟩ := List.mem_map.mp m
        refine ⟨en.rr, List.mem_map_of_mem me, ?_⟩
        simp only [Function.comp]
        split <;> exact ⟨rfl, rfl⟩
      · rw [setChain_other _ _ _ e] at m
        exact .inl ⟨a, m, rfl, rfl⟩
      · subst e
        rw [setChain_rrs, List.map_map] at m
        obtain ⟨en, me, rfl⟩ := List.mem_map.mp m
        simp only [Function.comp]
        split
        · exact .inr hx
        · exact .inl (List.mem_map_of_mem me)
      · rw [setChain_other _ _ _ e] at m
        exact .inl m
    | silent _ _ h =>
      subst h
      exact hnew (by rw [setChain_rrs]; rfl) fun j e => setChain_other _ _ _ e
    | told _ _ _ _ _ h1 h2 => exact hnew h1 h2

theorem CInv.cacheIn_tends {c c' : Core} (h : CInv c) {env : Env} {r : Resource} (hr : r.WF) {src : Addr}
    (e : c.cacheIn env r src = .ok c') : ∃ evs, Tends c c' evs ∧ Gets c c' [r] := by
  obtain ⟨c1, c2, ev1, ev2, e1, s, _, s2, f, n⟩ := h.cacheIn env hr src
  rw [e] at e1
  cases e1
  refine ⟨_, s.tends, ?_⟩
  have g : Gets c c1 [] := by
    cases f with
    | no _ h => subst h; exact .same fun _ => rfl
    | yes _ h => exact h.gets _
  exact g.trans (n.gets s2.now) s2.now

theorem InA.tends {env : Env} {src : Addr} {a : Resource} {did did' : Bool} {c c' : Core} {l l' : Lists}
    (n : InA env src a did c l did' c' l') (ha : a.WF) (h : DInv c l) : ∃ evs, Tends c c' evs ∧ Gets c c' [a] := by
  cases n with
  | cache _ e =>
    obtain ⟨e1, h1⟩ := received_still c a
    obtain ⟨e2, h2, g2⟩ := (h.cinv.received a).cacheIn_tends ha e
    exact ⟨_, h1.tends.trans h.cinv h2, (h1.gets []).trans g2 h2.now⟩
  | own _ hl _ => exact ⟨_, hl.still.tends, hl.still.gets _⟩
  | @conflict r x c1 c' _ hl hx _ e =>
    have f := (hl.still.trans (Still.heard _ (evs := [.conflict r x.rr.name x.rr.type]) (by simp [Event.quiet]))).trans
      (.recfree (doneSt_recfree _ l r x))
    obtain ⟨e1, h1⟩ := received_still (doneSt (c1.heard [.conflict r x.rr.name x.rr.type]) l r x).c a
    have f := f.trans h1
    obtain ⟨e2, h2, g2⟩ := ((done_inv h hl hx).cinv.received a).cacheIn_tends ha e
    exact ⟨_, f.tends.trans h.cinv h2, (f.gets []).trans g2 h2.now⟩

theorem InAs.tends {env : Env} {src : Addr} {as : List Resource} {did : Bool} {c c' : Core} {l l' : Lists}
    (n : InAs env src as did c l c' l') (ha : ∀ a ∈ as, a.WF) (h : DInv c l) :
    ∃ evs, Tends c c' evs ∧ Gets c c' as := by
  induction n with
  | nil => exact ⟨_, (Still.refl _).tends, .same fun _ => rfl⟩
  | cons _ h1 _ ih =>
    obtain ⟨e1, t1, g1⟩ := h1.tends (ha _ (by simp)) h
    obtain ⟨e2, t2, g2⟩ := ih (fun a m => ha a (by simp [m])) (h1.inv (ha _ (by simp)) h)
    exact ⟨_, t1.trans h.cinv t2, g1.trans g2 t2.now⟩

theorem CInv.query_tends {c c' : Core} (h : CInv c) {host : Bytes} {type : Nat} {a : Option Nat}
    (e : c.query host type a = .ok c') : ∃ evs, Tends c c' evs := by
  obtain ⟨o, h1, h2, h3⟩ := h.qFind host type
  cases a with
  | some cb =>
    obtain ⟨c1, e1, s1, e2⟩ := h.queryOn host type cb
    rw [e] at e1
    cases e1
    exact ⟨_, (s1.cbs e2).tends⟩
  | none =>
    cases o with
    | none =>
      unfold Core.query at e
      rw [h1] at e
      cases e
      exact ⟨_, (Still.refl _).tends⟩
    | some q =>
      obtain ⟨x, hx, rfl, rfl⟩ := h2 q rfl
      unfold Core.query at e
      rw [h1] at e
      obtain ⟨c1, e1, s1, _⟩ := h.qDone_cbs hx
      have e : c.qDone q = .ok c' := e
      rw [e] at e1
      cases e1
      exact ⟨_, s1.tends⟩

/-- The state with the time a call is given. -/
def Core.clocked (c : Core) (o : Op) : Core := match o.clock with
  | some t => { c with now := t }
  | none => c

/-- Entries are only added at the time the call is given. -/
def OnlyThen (o : Op) (c c' : Core) : Prop := (∀ i, ∀ a ∈ c'.rrs i, a ∈ c.rrs i) ∨ ∃ t, o.clock = some t ∧ c'.now = t

theorem OnlyThen.same {o : Op} {c c' : Core} (e : ∀ i, c'.rrs i = c.rrs i) : OnlyThen o c c' := .inl fun i a m => by rw [← e]; exact m

/-- Every call but `mdnsd_out`. -/
theorem Did.tends {env : Env} {o : Op} {a : OpOut} {c c' : Core} {l l' : Lists} (n : Did env o c l a c' l')
    (h : DInv c l) (ho : ∀ t, o ≠ .send t) :
    ∃ c0 evs, (c0 = c ∨ c0 = c.clocked o) ∧ Tends c0 c' evs ∧ Gets c c' o.hears ∧ OnlyThen o c c' := by
  have rf : ∀ {o : Op} {c'}, c'.recfree = c.recfree →
      ∃ c0 evs, (c0 = c ∨ c0 = c.clocked o) ∧ Tends c0 c' evs ∧ Gets c c' o.hears ∧ OnlyThen o c c' :=
    fun e => ⟨c, _, .inl rfl, (Still.recfree e).tends, (Still.recfree e).gets _, .same (Still.recfree e).rrs⟩
  have st : ∀ {o : Op} {c'}, Still c c' [] →
      ∃ c0 evs, (c0 = c ∨ c0 = c.clocked o) ∧ Tends c0 c' evs ∧ Gets c c' o.hears ∧ OnlyThen o c c' :=
    fun e => ⟨c, _, .inl rfl, e.tends, e.gets _, .same e.rrs⟩
  cases n with
  | recv wf n =>
    cases n with
    | shutdown _ => exact st (.refl c)
    | @own c1 _ hl _ =>
      exact ⟨_, _, .inr rfl, hl.still.tends, .same hl.still.rrs, .same hl.still.rrs⟩
    | query _ _ hl _ n =>
      obtain ⟨e2, h2⟩ := n.still
      have := hl.still.trans h2
      exact ⟨_, _, .inr rfl, this.tends, .same this.rrs, .same this.rrs⟩
    | response _ _ hl _ n =>
      have hi : DInv _ l := ⟨hl.cinv (h.atNow _).cinv, hl.rinv (h.atNow _).rinv⟩
      obtain ⟨e2, h2, g2⟩ := n.tends wf hi
      exact ⟨_, _, .inr rfl, hl.still.tends.trans (h.atNow _).cinv h2, (Gets.same (c := c) (as := []) hl.still.rrs).trans g2 h2.now,
        .inr ⟨_, rfl, h2.now.trans hl.still.now⟩⟩
  | send => exact absurd rfl (ho _)
  | query e n =>
    obtain ⟨evs, t⟩ := h.cinv.query_tends e
    exact ⟨c, _, .inl rfl, t, .same n.rrs, .same n.rrs⟩
  | setFamily => exact st { Still.refl c with }
  | setAddress n =>
    cases n with
    | same _ => exact st (.refl _)
    | set _ _ n => exact st { Still.recfree n.recfree with }
    | bye _ _ n => exact st { Still.recfree n.recfree with }
  | setIpv6Address n =>
    cases n with
    | same _ => exact st (.refl _)
    | set _ _ n => exact st { Still.recfree n.recfree with }
    | bye _ _ n => exact st { Still.recfree n.recfree with }
  | shutdown _ n =>
    obtain ⟨n⟩ := n
    exact st { Still.recfree n.recfree with }
  | receiveCallback => exact st { Still.refl c with }
  | @sleep now _ _ _ _ _ n =>
    cases n with
    | busy => exact st { Still.refl c with }
    | _ => exact ⟨{ c with now := now }, [], .inr rfl, Still.tends { Still.refl { c with now := now } with }, .same fun _ => rfl, .same fun _ => rfl⟩
  | shared => exact rf rfl
  | unique => exact rf rfl
  | done hx => exact rf (doneSt_recfree _ _ _ _)
  | setRaw hx => exact rf (setSt_recfree _ _ _ _)
  | setHost hx => exact rf (setSt_recfree _ _ _ _)
  | setIp hx => exact rf (setSt_recfree _ _ _ _)
  | setIpv6 hx => exact rf (setSt_recfree _ _ _ _)
  | setSrv hx => exact rf (setSt_recfree _ _ _ _)
  | setAddresses n => exact rf n.recfree
  | setIpv6Addresses n => exact rf n.recfree
  | setInterface n => exact rf n.recfree
  | clear _ e _ _ _ => exact rf e
  | stepEnd => exact st { Still.refl c with }

end Mdns
