import Verif.Props.Step
import Verif.Lemmas.Replies
import Verif.Props.Questions

/-!
# C76: what is received makes the daemon send a bounded number of packets
-/

namespace Mdns

/-! ### Specification -/

instance (type : Nat) (a : Answer) : Decidable (typeFits type a) := inferInstanceAs (Decidable (_ ∨ _))
instance (cls : Nat) (q : Question) (a : Answer) : Decidable (q.about cls a) := inferInstanceAs (Decidable (_ ∧ _))

/-- The packet names the record: a query asks for it, a response has a record of its name and
type. -/
def Msg.names (m : Msg) (cls : Nat) (a : Answer) : Prop :=
  if m.header.qr then ∃ y ∈ m.an, a.name = y.name ∧ typeFits y.type a else ∃ q ∈ m.qd, q.about cls a

instance (m : Msg) (cls : Nat) (a : Answer) : Decidable (m.names cls a) :=
  inferInstanceAs (Decidable (if m.header.qr then ∃ y ∈ m.an, a.name = y.name ∧ typeFits y.type a
    else ∃ q ∈ m.qd, q.about cls a))

/-- The records of the daemon the packet names. -/
def namedBy (c : Core) (m : Msg) : List Nat :=
  c.allPublished.filter fun r => match c.recs r with
    | some x => decide (m.names c.cls x.rr)
    | none => false

/-- The question is about a record of the daemon. -/
def meant (c : Core) (q : Question) : Bool :=
  c.allPublished.any fun r => match c.recs r with
    | some x => decide (q.about c.cls x.rr)
    | none => false

/-- The packets with records one call may add to what a daemon, as it is now, has to send: a packet
received one for every record it names, and a query one more for every question about a record;
asking for the time to wait one for every record. -/
def allowance (c : Core) : Op → Nat
  | .recv _ m _ => (namedBy c m).length + (if m.header.qr then 0 else (m.qd.filter (meant c)).length)
  | .sleep _ => c.allPublished.length
  | _ => 0

/-! ### Lemmas -/

namespace Bounded

/-- Names and types are kept, no record is new. -/
def Named (c c' : Core) : Prop := ∀ r x', c'.recs r = some x' → ∃ x, c.recs r = some x ∧ x.rr.name = x'.rr.name ∧
  x.rr.type = x'.rr.type

theorem Named.refl (c : Core) : Named c c := fun _ x' h => ⟨x', h, rfl, rfl⟩
theorem Named.of_eq {c c' : Core} (e : c'.recs = c.recs) : Named c c' := fun _ x' h => ⟨x', e ▸ h, rfl, rfl⟩
theorem Named.trans {a b c : Core} (h : Named a b) (h' : Named b c) : Named a c := by
  intro r x hx
  obtain ⟨y, hy, e1, e2⟩ := h' r x hx
  obtain ⟨z, hz, e3, e4⟩ := h r y hy
  exact ⟨z, hz, e3.trans e1, e4.trans e2⟩

theorem step_named {u v : View} {ls : List Lab} (h : RStep u ls v) (hn : Lab.new ∉ ls) : ∀ x', v.x = some x' →
    ∃ x, u.x = some x ∧ x.rr.name = x'.rr.name ∧ x.rr.type = x'.rr.type := by
  cases h with
  | touch h _ => rintro _ ⟨⟩; exact ⟨_, rfl, by rw [h.rr], by rw [h.rr]⟩
  | skip _ => rintro _ ⟨⟩; exact ⟨_, rfl, rfl, rfl⟩
  | shared => simp at hn
  | unique => simp at hn
  | edit _ h _ => rintro _ ⟨⟩; exact ⟨_, rfl, h.name.symm, h.type.symm⟩
  | publish _ h _ => rintro _ ⟨⟩; exact ⟨_, rfl, h.name.symm, h.type.symm⟩
  | queue _ _ _ => rintro _ ⟨⟩; exact ⟨_, rfl, rfl, rfl⟩
  | bye _ => rintro _ ⟨⟩; exact ⟨_, rfl, rfl, rfl⟩
  | drop => rintro _ ⟨⟩
  | sent _ _ h => rintro _ ⟨⟩; exact ⟨_, rfl, by rw [h.rr], by rw [h.rr]⟩
  | sentBye _ _ => rintro _ ⟨⟩
  | announce _ _ hr _ _ => rintro _ ⟨⟩; exact ⟨_, rfl, by rw [hr], by rw [hr]⟩
  | announceLast _ _ hr _ _ => rintro _ ⟨⟩; exact ⟨_, rfl, by rw [hr], by rw [hr]⟩
  | verify _ hr _ _ => rintro _ ⟨⟩; exact ⟨_, rfl, by rw [hr], by rw [hr]⟩
  | propose _ hr _ _ => rintro _ ⟨⟩; exact ⟨_, rfl, by rw [hr], by rw [hr]⟩
  | unicast h => rintro _ ⟨⟩; exact ⟨_, rfl, by rw [h.rr], by rw [h.rr]⟩
  | extra => rintro _ ⟨⟩; exact ⟨_, rfl, rfl, rfl⟩

theorem steps_named {u v : View} {ls : List Lab} (h : RSteps u ls v) (hn : Lab.new ∉ ls) : ∀ x', v.x = some x' →
    ∃ x, u.x = some x ∧ x.rr.name = x'.rr.name ∧ x.rr.type = x'.rr.type := by
  induction h with
  | refl => exact fun x' h => ⟨x', h, rfl, rfl⟩
  | step h _ ih =>
    intro x' hx
    obtain ⟨y, hy, e1, e2⟩ := ih (fun m => hn (by simp [m])) x' hx
    obtain ⟨z, hz, e3, e4⟩ := step_named h (fun m => hn (by simp [m])) y hy
    exact ⟨z, hz, e3.trans e1, e4.trans e2⟩

theorem run_named {P : Nat → Lab → Prop} {c c' : Core} {l l' : Lists} {ts : List (Section × Nat)}
    (h : Run P c l ts c' l') (hp : ∀ r, ¬ P r .new) : Named c c' := by
  intro r x' hx
  obtain ⟨ls, n, _, p⟩ := h.steps r
  exact steps_named n (fun m => hp r (p _ m)) x' hx

/-- What receiving a packet may do to records, those queued being of a set. -/
def replyLab (A : Nat → Prop) (r : Nat) (a : Lab) : Prop := (a = .ask ∧ A r) ∨ a = .bye ∨ a = .free

theorem replyLab.old {A : Nat → Prop} (r : Nat) : ¬ replyLab A r .new := by simp [replyLab]

/-! #### What may be queued -/

theorem ans_run {env : Env} {src : Addr} {q : Question} {an : List Resource} {rs : List Nat} {s t : ISt} {A : Nat → Prop}
    (n : AnsL env src q an rs s t) (hA : ∀ r ∈ rs, A r) : Run (replyLab A) s.c s.l [] t.c t.l := by
  induction n with
  | done h => exact .idle rfl
  | quiet h hx hu hl hf n ih => exact Run.pre hl.recs (ih fun r m => hA r (by simp [m]))
  | conflict h hx hu hl ha n ih =>
    refine Run.trans (ts := []) (Run.dropProbing h hx ⟨hu.1, hu.2.1⟩ ?_ (.inr (.inr rfl))) (ih fun r m => hA r (by simp [m]))
    exact congrArg (upd · _ none) hl.recs
  | @known r rs s t x evs h hx hu he hk n ih =>
    exact Run.pre (c1 := s.c.heard evs) rfl (ih fun r m => hA r (by simp [m]))
  | @send r rs s t x evs h hx hu he hk n ih =>
    exact Run.trans (ts := []) (Run.trans (ts := []) (c1 := s.c.heard evs) (.idle rfl)
      (Run.send (c := s.c.heard evs) (h.congr rfl rfl rfl) hx (.inl ⟨rfl, hA r (by simp)⟩))) (ih fun r m => hA r (by simp [m]))

theorem sends_run {rs : List Nat} {c c' : Core} {l l' : Lists} {A : Nat → Prop} (n : SendL rs c l c' l')
    (hA : ∀ r ∈ rs, A r) : Run (replyLab A) c l [] c' l' := by
  induction n with
  | done h => exact .idle rfl
  | send h hx n ih => exact Run.trans (ts := []) (Run.send h hx (.inl ⟨rfl, hA _ (by simp)⟩)) (ih fun r m => hA r (by simp [m]))

theorem question_run {env : Env} {m : Msg} {src : Addr} {q : Question} {did did' : Bool} {c c' : Core} {l l' : Lists}
    {A : Nat → Prop} (n : InQ env m src q did c l did' c' l')
    (hA : ∀ r x, c.recs r = some x → q.about c.cls x.rr → A r) : Run (replyLab A) c l [] c' l' := by
  have hA' : q.cls = c.cls → ∀ r ∈ c.matching q.name q.type, A r := by
    intro hc r m
    obtain ⟨x, hx, h⟩ := mem_about hc m
    exact hA r x hx h
  cases n with
  | none h => exact .idle rfl
  | disco h _ _ n => exact Run.pre (c1 := { c with disco := true }) rfl (sends_run n (hA' h))
  | multi h _ _ n => exact ans_run n (hA' h)
  | uni h _ _ n => exact Run.trans (ts := []) (ans_run n (hA' h)) (.idle rfl)

theorem questions_run {env : Env} {m : Msg} {src : Addr} {qs : List Question} {did : Bool} {c c' : Core} {l l' : Lists}
    {A : Nat → Prop} (n : InQs env m src qs did c l c' l')
    (hA : ∀ q ∈ qs, ∀ r x, c.recs r = some x → q.about c.cls x.rr → A r) : Run (replyLab A) c l [] c' l' := by
  induction n with
  | nil => exact .idle rfl
  | @cons q qs did did' c c1 c' l l1 l' i h n ih =>
    refine Run.trans (ts := []) (question_run h (hA q (by simp))) (ih fun q' m r x hx ha => ?_)
    rw [fixed_cls h.fixed] at ha
    exact hA q' (by simp [m]) r x (h.fewer r x hx) ha

theorem rival_named {c : Core} {a : Resource} {r : Nat} (h : c.rival a = some r) :
    ∃ x, c.recs r = some x ∧ x.rr.name = a.name ∧ typeFits a.type x.rr := by
  unfold Core.rival at h
  split at h
  · cases h
  · rename_i s hs
    split at h
    · cases h
    · rename_i x hx
      split at h
      · cases h
        have m : r ∈ c.matching a.name a.type := List.mem_of_mem_head? (by rw [hs]; rfl)
        obtain ⟨y, hy, h1, h2⟩ := isRec_name (List.mem_filter.mp m).2
        exact ⟨y, hy, h1, h2⟩
      · cases h

theorem answer_run {env : Env} {src : Addr} {a : Resource} {did did' : Bool} {c c' : Core} {l l' : Lists} {A : Nat → Prop}
    (n : InA env src a did c l did' c' l') (ha : a.WF) (h : DInv c l)
    (hA : ∀ r x, c.recs r = some x → x.rr.name = a.name → typeFits a.type x.rr → A r) :
    Run (replyLab A) c l [] c' l' := by
  cases n with
  | cache _ e =>
    have := cacheIn_recs (c := c.received a) (h.cinv.received a) ha e
    exact Run.pre (c1 := c.received a) rfl (.rest this)
  | own _ hl => exact .idle hl.recs
  | @conflict r x c1 _ hr hl hx hu e =>
    obtain ⟨y, hy, h1, h2⟩ := rival_named hr
    have i := done_inv h hl hx
    have := cacheIn_recs (c := (doneSt (c1.heard [.conflict r x.rr.name x.rr.type]) l r x).c.received a)
      (i.cinv.received a) ha e
    refine Run.trans (ts := []) (Run.trans (ts := []) (c1 := c1.heard [.conflict r x.rr.name x.rr.type]) (.idle hl.recs)
      (Run.done (c := c1.heard [.conflict r x.rr.name x.rr.type]) ((hl.rinv h.rinv).congr rfl rfl rfl) hx
        (.inl ⟨rfl, hA r y hy h1 h2⟩) (.inr (.inl rfl)) (.inr (.inr rfl)))) ?_
    exact Run.pre (c1 := (doneSt (c1.heard [.conflict r x.rr.name x.rr.type]) l r x).c.received a) rfl (.rest this)

theorem answers_run {env : Env} {src : Addr} {as : List Resource} {did : Bool} {c c' : Core} {l l' : Lists} {A : Nat → Prop}
    (n : InAs env src as did c l c' l') (ha : ∀ a ∈ as, a.WF)
    (hA : ∀ a ∈ as, ∀ r x, c.recs r = some x → x.rr.name = a.name → typeFits a.type x.rr → A r) :
    Run (replyLab A) c l [] c' l' := by
  induction n with
  | nil => exact .idle rfl
  | cons i h _ ih =>
    have h1 := answer_run h (ha _ (by simp)) i (hA _ (by simp))
    refine Run.trans (ts := []) h1 (ih (fun a m => ha a (by simp [m])) fun a m r x hx e1 e2 => ?_)
    obtain ⟨y, hy, n1, n2⟩ := run_named h1 replyLab.old r x hx
    exact hA a (by simp [m]) r y hy (n1.trans e1) (by unfold typeFits; rw [n2]; exact e2)

/-- Receiving queues only records the packet names. -/
theorem recv_run {env : Env} {now : TV} {m : Msg} {src : Addr} {c c' : Core} {l l' : Lists} {ret : Nat}
    (n : InMsg env now m src c l ret c' l') (ha : ∀ a ∈ m.an, a.WF) :
    Run (replyLab fun r => ∃ x, c.recs r = some x ∧ m.names c.cls x.rr) c l [] c' l' := by
  cases n with
  | shutdown => exact .idle rfl
  | own _ hl _ => exact .idle hl.recs
  | @query c1 _ _ _ hq hl _ n =>
    refine Run.trans (ts := []) (.idle hl.recs) (questions_run n fun q mq r x hx h => ⟨x, ?_, ?_⟩)
    · rw [hl.recs] at hx; exact hx
    · rw [(fixed_cls hl.fixed : c1.cls = c.cls)] at h
      unfold Msg.names
      rw [if_neg (by simp [hq])]
      exact ⟨q, mq, h⟩
  | response _ hq hl _ n =>
    refine Run.trans (ts := []) (.idle hl.recs) (answers_run n ha fun a ma r x hx h1 h2 => ⟨x, ?_, ?_⟩)
    · rw [hl.recs] at hx; exact hx
    · unfold Msg.names
      rw [if_pos hq]
      exact ⟨a, ma, h1, h2⟩

/-! #### Replies to a single host -/

theorem ans_uans {env : Env} {src : Addr} {q : Question} {an : List Resource} {rs : List Nat} {s t : ISt}
    (n : AnsL env src q an rs s t) : t.c.uanswers.length ≤ s.c.uanswers.length := by
  induction n with
  | done h => exact Nat.le_refl _
  | quiet h hx hu hl hf n ih => obtain ⟨_, _, _, rfl, _⟩ := hl; exact ih
  | conflict h hx hu hl ha n ih =>
    obtain ⟨_, _, _, rfl, _⟩ := hl
    exact Nat.le_trans ih (List.length_filter_le _ _)
  | known h hx hu he hk n ih => exact ih
  | @send r rs s t x evs h hx hu he hk n ih =>
    have := sendSt_uanswers (s.c.heard evs) s.l r x
    simp only at ih
    rw [this] at ih
    exact ih

theorem question_uans {env : Env} {m : Msg} {src : Addr} {q : Question} {did did' : Bool} {c c' : Core} {l l' : Lists}
    {A : Question → Bool} (n : InQ env m src q did c l did' c' l')
    (hA : ∀ r x, c.recs r = some x → q.about c.cls x.rr → A q = true) :
    c'.uanswers.length ≤ c.uanswers.length + (if A q then 1 else 0) := by
  cases n with
  | none h => exact Nat.le_add_right _ _
  | disco h _ _ n => rw [n.uanswers]; exact Nat.le_add_right _ _
  | multi h _ _ n => exact Nat.le_trans (ans_uans n) (Nat.le_add_right _ _)
  | @uni r rs t h _ hm n =>
    obtain ⟨x, hx, ha⟩ := mem_about (r := r) h (by rw [hm]; simp)
    rw [if_pos (hA r x hx ha)]
    exact Nat.succ_le_succ (ans_uans n)

theorem questions_uans {env : Env} {m : Msg} {src : Addr} {qs : List Question} {did : Bool} {c c' : Core} {l l' : Lists}
    {A : Question → Bool} (n : InQs env m src qs did c l c' l')
    (hA : ∀ q ∈ qs, ∀ r x, c.recs r = some x → q.about c.cls x.rr → A q = true) :
    c'.uanswers.length ≤ c.uanswers.length + (qs.filter A).length := by
  induction n with
  | nil => exact Nat.le_refl _
  | @cons q qs did did' c c1 c' l l1 l' i h n ih =>
    have h1 := question_uans h (hA q (by simp))
    have h2 := ih fun q' m r x hx ha => by
      rw [fixed_cls h.fixed] at ha
      exact hA q' (by simp [m]) r x (h.fewer r x hx) ha
    rw [List.filter_cons]
    by_cases e : A q = true
    · rw [if_pos e] at h1 ⊢
      simp only [List.length_cons]
      omega
    · rw [if_neg e] at h1 ⊢
      omega

theorem done_uans (c : Core) (l : Lists) (r : Nat) (x : Rec) : (doneSt c l r x).c.uanswers.length ≤ c.uanswers.length := by
  unfold doneSt
  split
  · exact List.length_filter_le _ _
  · rw [sendSt_uanswers]
    exact Nat.le_refl _

theorem rest_uans {c c' : Core} (h : c'.rest = c.rest) : c'.uanswers = c.uanswers :=
  (congrArg Core.uanswers h : c'.rest.uanswers = c.rest.uanswers)

theorem answer_uans {env : Env} {src : Addr} {a : Resource} {did did' : Bool} {c c' : Core} {l l' : Lists}
    (n : InA env src a did c l did' c' l') (ha : a.WF) (h : DInv c l) : c'.uanswers.length ≤ c.uanswers.length := by
  cases n with
  | cache _ e =>
    have := rest_uans (cacheIn_recs (c := c.received a) (h.cinv.received a) ha e)
    rw [this]
    exact Nat.le_refl _
  | own _ hl => obtain ⟨_, _, _, rfl, _⟩ := hl; exact Nat.le_refl _
  | @conflict r x c1 _ hr hl hx hu e =>
    have i := done_inv h hl hx
    have := rest_uans (cacheIn_recs (c := (doneSt (c1.heard [.conflict r x.rr.name x.rr.type]) l r x).c.received a)
      (i.cinv.received a) ha e)
    rw [this]
    refine Nat.le_trans (done_uans (c1.heard [.conflict r x.rr.name x.rr.type]) l r x) ?_
    obtain ⟨_, _, _, rfl, _⟩ := hl
    exact Nat.le_refl _

theorem answers_uans {env : Env} {src : Addr} {as : List Resource} {did : Bool} {c c' : Core} {l l' : Lists}
    (n : InAs env src as did c l c' l') (ha : ∀ a ∈ as, a.WF) : c'.uanswers.length ≤ c.uanswers.length := by
  induction n with
  | nil => exact Nat.le_refl _
  | cons i h _ ih => exact Nat.le_trans (ih fun a m => ha a (by simp [m])) (answer_uans h (ha _ (by simp)) i)

theorem recv_uans {env : Env} {now : TV} {m : Msg} {src : Addr} {c c' : Core} {l l' : Lists} {ret : Nat}
    {A : Question → Bool} (n : InMsg env now m src c l ret c' l') (ha : ∀ a ∈ m.an, a.WF)
    (hA : ∀ q, ∀ r x, c.recs r = some x → q.about c.cls x.rr → A q = true) :
    c'.uanswers.length ≤ c.uanswers.length + (if m.header.qr then 0 else (m.qd.filter A).length) := by
  cases n with
  | shutdown => exact Nat.le_add_right _ _
  | own _ hl _ => obtain ⟨_, _, _, rfl, _⟩ := hl; exact Nat.le_add_right _ _
  | query _ hq hl _ n =>
    rw [if_neg (by simp [hq])]
    have := questions_uans (A := A) n fun q _ r x hx ha =>
      hA q r x (by rw [← hx, hl.recs]) ((fixed_cls hl.fixed : _ = c.cls) ▸ ha)
    obtain ⟨_, _, _, rfl, _⟩ := hl
    exact this
  | response _ hq hl _ n =>
    have := answers_uans n ha
    obtain ⟨_, _, _, rfl, _⟩ := hl
    exact Nat.le_trans this (Nat.le_add_right _ _)

/-! #### Weights -/

theorem step_weight {u v : View} {ls : List Lab} (h : RStep u ls v) (hl : ∀ a ∈ ls, a = .ask ∨ a = .bye ∨ a = .free) :
    v.weight ≤ (if Lab.ask ∈ ls then max u.weight 1 else u.weight) := by
  cases h with
  | touch h _ => exact Nat.le_of_eq (h.weight _)
  | skip _ => exact Nat.zero_le _
  | shared => simp at hl
  | unique => simp at hl
  | edit => simp at hl
  | publish => simp at hl
  | @queue x p w _ _ hw =>
    have : View.weight ⟨some x, some w⟩ = 1 := hw.weight x
    rw [this, if_pos (by simp)]
    exact Nat.le_max_right _ _
  | bye _ => exact Nat.le_refl _
  | drop => exact Nat.zero_le _
  | sent => simp at hl
  | sentBye => simp at hl
  | announce => simp at hl
  | announceLast => simp at hl
  | verify => simp at hl
  | propose => simp at hl
  | unicast => simp at hl
  | extra => simp at hl

theorem steps_weight {u v : View} {ls : List Lab} (h : RSteps u ls v) (hl : ∀ a ∈ ls, a = .ask ∨ a = .bye ∨ a = .free) :
    v.weight ≤ (if Lab.ask ∈ ls then max u.weight 1 else u.weight) := by
  induction h with
  | refl => exact Nat.le_refl _
  | @step u v w a b h _ ih =>
    have h1 := step_weight h fun x m => hl x (by simp [m])
    have h2 := ih fun x m => hl x (by simp [m])
    by_cases ha : Lab.ask ∈ a <;> by_cases hb : Lab.ask ∈ b <;> simp [ha, hb] at h1 h2 ⊢ <;> omega

theorem sumTo_add (f g : Nat → Nat) : ∀ n, sumTo (fun r => f r + g r) n = sumTo f n + sumTo g n
  | 0 => rfl
  | n + 1 => by
    unfold sumTo
    rw [sumTo_add f g n]
    omega

/-- What is to be sent grows by at most the records queued. -/
theorem run_load {P : Nat → Lab → Prop} {c c' : Core} {l l' : Lists} (h : Run P c l [] c' l') (i : RInv c l) (rs : List Nat)
    (hp : ∀ r a, P r a → (a = .ask ∧ (c.recs r ≠ none → r ∈ rs)) ∨ a = .bye ∨ a = .free) {k : Nat}
    (hu : c'.uanswers.length ≤ c.uanswers.length + k) : load c' l' ≤ load c l + (rs.length + k) := by
  have hw : ∀ r, (view c' l' r).weight ≤ (view c l r).weight + (if r ∈ rs then 1 else 0) := by
    intro r
    obtain ⟨ls, n, _, p⟩ := h.steps r
    by_cases hx : c.recs r = none
    · have : (view c' l' r).weight = 0 := by
        unfold View.weight
        cases e : (view c' l' r).x with
        | none => rfl
        | some x' =>
          obtain ⟨x, hx', _⟩ := steps_named n (fun m => by rcases hp r _ (p _ m) with ⟨h, _⟩ | h | h <;> cases h) x' e
          rw [show (view c l r).x = c.recs r from rfl, hx] at hx'
          cases hx'
      omega
    have := steps_weight n fun a m => by
      rcases hp r a (p a m) with h | h | h
      · exact .inl h.1
      · exact .inr (.inl h)
      · exact .inr (.inr h)
    by_cases e : Lab.ask ∈ ls
    · have hr : r ∈ rs := by
        rcases hp r _ (p _ e) with h | h | h
        · exact h.2 hx
        · cases h
        · cases h
      rw [if_pos e] at this
      rw [if_pos hr]
      omega
    · rw [if_neg e] at this
      split <;> omega
  have h1 := sumTo_le hw l'.size
  rw [sumTo_add (fun r => (view c l r).weight) (fun r => if r ∈ rs then 1 else 0)] at h1
  have h2 : sumTo (fun r => (view c l r).weight) l'.size = sumTo (fun r => (view c l r).weight) l.size := by
    refine sumTo_more (fun r hr => ?_) _ h.size
    have : c.recs r = none := by
      cases hx : c.recs r with
      | none => rfl
      | some x =>
        have := i.bound r (by rw [hx]; rfl)
        omega
    rw [view_none i this]
    rfl
  have h3 : sumTo (fun r => if r ∈ rs then 1 else 0) l'.size ≤ 1 * rs.length :=
    sumTo_support (fun r hr => by
      by_cases e : r ∈ rs
      · exact e
      · rw [if_neg e] at hr
        exact absurd rfl hr) fun r => by split <;> omega
  unfold load
  omega

/-- Calls that make no records. -/
structure Since (c0 c : Core) : Prop where
  named : Named c0 c
  cls : c.cls = c0.cls

theorem did_load {env : Env} {o : Op} {c c' c0 : Core} {l l' l0 : Lists} {a : OpOut} (n : Did env o c l a c' l')
    (ho : o.ofStep = true) (h : DInv c l) (h' : DInv c' l') (h0 : DInv c0 l0) (hu : ∀ u ∈ c.uanswers, u.to.port ≠ 5353)
    (s : Since c0 c) : Since c0 c' ∧
      load c' l' + bearing (packetsOf [(o, a)]) ≤ load c l + allowance c0 o := by
  have hr := n.run h hu
  have hold : ∀ r, ¬ o.may l.size a r .new := by
    intro r
    cases o <;> first | (simp [Op.ofStep] at ho; done) | simp [Op.may, recvLab, sendLab]
  refine ⟨⟨s.named.trans (run_named hr hold), (congrArg Prod.fst n.fixed : c'.cls = c.cls).trans s.cls⟩, ?_⟩
  have all : ∀ r, c.recs r ≠ none → r ∈ c0.allPublished := by
    intro r hr
    cases hx : c.recs r with
    | none => exact absurd hx hr
    | some x =>
      obtain ⟨y, hy, _⟩ := s.named r x hx
      exact h0.rinv.mem_all hy
  cases n with
  | @recv _ m _ _ _ _ _ _ wf n =>
    have := run_load (recv_run n wf) h.rinv (namedBy c0 m) (fun r b hb => ?_)
      (recv_uans (A := meant c0) n wf fun q r x hx ha => ?_)
    · exact this
    · rcases hb with ⟨e, x, hx, hn⟩ | hb
      · refine .inl ⟨e, fun _ => ?_⟩
        obtain ⟨y, hy, e1, e2⟩ := s.named r x hx
        refine List.mem_filter.mpr ⟨h0.rinv.mem_all hy, ?_⟩
        rw [hy]
        simp only [decide_eq_true_eq]
        rw [s.cls] at hn
        unfold Msg.names Question.about typeFits at *
        rw [e1, e2]
        exact hn
      · exact .inr hb
    · obtain ⟨y, hy, e1, e2⟩ := s.named r x hx
      refine List.any_eq_true.mpr ⟨r, h0.rinv.mem_all hy, ?_⟩
      rw [hy]
      simp only [decide_eq_true_eq]
      rw [s.cls] at ha
      unfold Question.about typeFits at *
      rw [e1, e2]
      exact ha
  | @send now ret m to _ _ _ _ n =>
    have := n.load_le hu (h.atNow now).rinv h'.rinv
    have e : load { c with now := now } l = load c l := rfl
    show _ + bearing (packetsOf [_]) ≤ _ + 0
    unfold bearing packetsOf
    by_cases hret : ret = 0
    · simp [hret]
      omega
    · by_cases ht : m.tags = []
      · simp [hret, ht]
        omega
      · have := this.2 ht
        simp [hret, ht]
        omega
  | sleep n =>
    have e : c'.uanswers = c.uanswers := by cases n <;> rfl
    have := run_load (n.run h.rinv) h.rinv c0.allPublished (fun r b hb => .inl ⟨hb, all r⟩) (k := 0) (Nat.le_of_eq (by rw [e]; rfl))
    exact this
  | stepEnd => exact Nat.le_refl _
  | _ => simp [Op.ofStep] at ho

theorem bearing_append (a b : List (Out × Addr)) : bearing (a ++ b) = bearing a + bearing b := by
  simp [bearing]

theorem packetsOf_append (a b : List Call) : packetsOf (a ++ b) = packetsOf a ++ packetsOf b := by
  simp [packetsOf]

theorem calls_load {env : Env} {d d' : D Ptrs} {h : List Call} (n : Calls env d h d') (hr : Reach env d)
    (ho : ∀ k ∈ h, k.1.ofStep = true) : load d'.c d'.lists + bearing (packetsOf h) ≤
      load d.c d.lists + (h.map fun k => allowance d.c k.1).sum := by
  have H : Since d.c d'.c ∧ load d'.c d'.lists + bearing (packetsOf h) ≤
      load d.c d.lists + (h.map fun k => allowance d.c k.1).sum := by
    refine n.induct (P := fun h1 c l => Since d.c c ∧ load c l + bearing (packetsOf h1) ≤
      load d.c d.lists + (h1.map fun k => allowance d.c k.1).sum) hr ⟨⟨.refl _, rfl⟩, Nat.le_refl _⟩ ?_
    rintro h1 c l o a c' l' ⟨h2, rfl⟩ ⟨s, ih⟩ i hu _ n i'
    obtain ⟨s', hl⟩ := did_load n (ho (o, a) (by simp)) i i' hr.inv hu s
    refine ⟨s', ?_⟩
    rw [packetsOf_append, bearing_append, List.map_append, List.sum_append]
    simp only [List.map_cons, List.map_nil, List.sum_cons, List.sum_nil]
    omega
  exact H.2

end Bounded

/-! ### Theorems -/

/-- C76: whatever is received, in any state and however long the daemon is run, the packets with
records it sends are at most one for every unicast reply and nine for every record pending at the
start, one for every record that each packet received names and every question it has, and one for
every record each time the time to wait is asked for. -/
theorem C76_bounded {env : Env} {d d' : D Ptrs} {h : List Call} (hr : Reach env d) (n : Calls env d h d')
    (ho : ∀ k ∈ h, k.1.ofStep = true) : bearing (packetsOf h) ≤
      d.c.uanswers.length + 9 * d.c.allPublished.length + (h.map fun k => allowance d.c k.1).sum := by
  have h1 := Bounded.calls_load n hr ho
  have h2 := load_live hr.inv.rinv
  omega

/-- C76: from a state in which nothing is waiting to be sent, only what is received, and the
renewal of records before they expire, makes the daemon send records. -/
theorem C76_provoked {env : Env} {d d' : D Ptrs} {h : List Call} (hr : Reach env d) (hq : ∀ w, d.lists.q w = [])
    (hu : d.c.uanswers = []) (n : Calls env d h d') (ho : ∀ k ∈ h, k.1.ofStep = true) :
    bearing (packetsOf h) ≤ (h.map fun k => allowance d.c k.1).sum := by
  have h1 := Bounded.calls_load n hr ho
  have h2 : load d.c d.lists = 0 := by
    have : load d.c d.lists ≤ 0 + 0 * 0 := by
      unfold load
      rw [hu]
      refine Nat.add_le_add_left (sumTo_support (b := 0) (rs := []) (fun r hr => absurd ?_ hr) fun r => ?_) 0
      all_goals
        have : (view d.c d.lists r).weight = 0 := by
          unfold View.weight view Lists.place
          simp only [hq, List.not_mem_nil, if_false]
          cases d.c.recs r <;> rfl
        omega
    omega
  omega

/-- C76: packets that name no record of the daemon make it send no record. -/
theorem C76_unprovoked {env : Env} {d d' : D Ptrs} {h : List Call} (hr : Reach env d) (hq : ∀ w, d.lists.q w = [])
    (hu : d.c.uanswers = []) (n : Calls env d h d')
    (ho : ∀ k ∈ h, (∃ now, k.1 = .send now) ∨ ∃ now m src, k.1 = .recv now m src ∧
      ∀ r x, d.c.recs r = some x → ¬ m.names d.c.cls x.rr) : bearing (packetsOf h) = 0 := by
  have h1 := C76_provoked hr hq hu n fun k m => by
    rcases ho k m with ⟨_, e⟩ | ⟨_, _, _, e, _⟩ <;> rw [e] <;> rfl
  have h2 : (h.map fun k => allowance d.c k.1).sum = 0 := by
    rw [List.sum_eq_zero_iff_forall_eq_nat]
    intro v mv
    obtain ⟨k, mk, rfl⟩ := List.mem_map.mp mv
    rcases ho k mk with ⟨_, e⟩ | ⟨_, m, _, e, e3⟩
    · rw [e]; rfl
    · rw [e]
      show (namedBy d.c m).length + (if m.header.qr then 0 else (m.qd.filter (meant d.c)).length) = 0
      have h1 : namedBy d.c m = [] := by
        refine List.filter_eq_nil_iff.mpr fun r _ => ?_
        cases hx : d.c.recs r with
        | none => simp
        | some x => simpa using e3 r x hx
      rw [h1]
      split
      · rfl
      · rename_i hq
        have : m.qd.filter (meant d.c) = [] := by
          refine List.filter_eq_nil_iff.mpr fun q mq hm => ?_
          obtain ⟨r, _, hr⟩ := List.any_eq_true.mp hm
          cases hx : d.c.recs r with
          | none => rw [hx] at hr; cases hr
          | some x =>
            rw [hx] at hr
            refine e3 r x hx ?_
            unfold Msg.names
            rw [if_neg hq]
            exact ⟨q, mq, by simpa using hr⟩
        rw [this]
        rfl
  omega

/-! ### Witnesses -/

namespace Bounded.Sample
open Mdns.Sample

/-- A host asks for the address, twice in one packet, and gets two replies of its own and an answer
for everyone; its question for another name gets nothing. -/
def provoked : List Op :=
  [.recv (at_ 110) { ask (nm 97) 1 with qd := [⟨nm 97, 1, 1⟩, ⟨nm 97, 255, 1⟩] } lone,
    .recv (at_ 110) (ask (nm 98) 1) lone] ++ sends [111, 111, 111, 111, 112]

/-- C76: the hypotheses hold, and the bound is attained. -/
example : Reach quiet (trace quiet announced fresh).2 ∧ (∀ w, (trace quiet announced fresh).2.lists.q w = []) ∧
    (trace quiet announced fresh).2.c.uanswers = [] ∧
    Calls quiet (trace quiet announced fresh).2 (trace quiet provoked (trace quiet announced fresh).2).1
      (trace quiet provoked (trace quiet announced fresh).2).2 ∧
    (∀ k ∈ (trace quiet provoked (trace quiet announced fresh).2).1, k.1.ofStep = true) ∧
    bearing (packetsOf (trace quiet provoked (trace quiet announced fresh).2).1) = 3 ∧
    ((trace quiet provoked (trace quiet announced fresh).2).1.map
      fun k => allowance (trace quiet announced fresh).2.c k.1).sum = 3 :=
  ⟨reach_of (by decide +kernel), fun w => by cases w <;> decide +kernel, by decide +kernel, calls_of (by decide +kernel),
    by decide +kernel, by decide +kernel, by decide +kernel⟩

/-- A question for another name, a response with a record of another name. -/
def unprovoked : List Op :=
  [.recv (at_ 110) (ask (nm 98) 1) lone, .recv (at_ 110) (ask (nm 97) 12) other,
    .recv (at_ 110) { ask (nm 97) 1 with header := { qr := true } } other, .send (at_ 111)]

/-- C76: the hypotheses hold for such packets. -/
example : Calls quiet (trace quiet announced fresh).2 (trace quiet unprovoked (trace quiet announced fresh).2).1
      (trace quiet unprovoked (trace quiet announced fresh).2).2 ∧
    (∀ o ∈ unprovoked, (∃ now, o = .send now) ∨ ∃ now m src, o = .recv now m src ∧
      namedBy (trace quiet announced fresh).2.c m = []) := by
  refine ⟨calls_of (by decide +kernel), fun o mo => ?_⟩
  simp only [unprovoked, List.mem_cons, List.not_mem_nil, or_false] at mo
  rcases mo with rfl | rfl | rfl | rfl
  · exact .inr ⟨_, _, _, rfl, by decide +kernel⟩
  · exact .inr ⟨_, _, _, rfl, by decide +kernel⟩
  · exact .inr ⟨_, _, _, rfl, by decide +kernel⟩
  · exact .inl ⟨_, rfl⟩

end Bounded.Sample

end Mdns
