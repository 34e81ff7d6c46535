import Verif.Lemmas.Views
import Verif.Spec.Client

/-!
# What a program was told and what is in the cache
-/

namespace Mdns

variable {env : Env} {host : Bytes} {type : Nat}

theorem clientGo_append (host : Bytes) (type : Nat) (e : Event) : ∀ (log pre : List Event) (K : Answer → Prop),
    clientGo host type pre K (log ++ [e]) =
      clientStep host type (callback (pre ++ log) host type) (clientGo host type pre K log) e
  | [], pre, K => by
    rw [List.append_nil]
    rfl
  | a :: log, pre, K => by
    have : pre ++ a :: log = (pre ++ [a]) ++ log := by simp
    rw [this]
    exact clientGo_append host type e log (pre ++ [a]) _

theorem client_append (host : Bytes) (type : Nat) (log : List Event) (e : Event) :
    Client host type (log ++ [e]) = clientStep host type (callback log host type) (Client host type log) e :=
  clientGo_append host type e log [] _

theorem client_quiet (log : List Event) : ∀ (evs : List Event), (∀ e ∈ evs, e.quiet) →
    Client host type (log ++ evs) = Client host type log
  | [], _ => by rw [List.append_nil]
  | e :: evs, h => by
    have : log ++ e :: evs = (log ++ [e]) ++ evs := by simp
    rw [this, client_quiet (log ++ [e]) evs fun e' m => h e' (by simp [m]), client_append]
    have := h e (by simp)
    cases e with
    | received r => rfl
    | conflict r n t => rfl
    | answer => exact this.elim
    | registered => exact this.elim
    | unregistered => exact this.elim

/-- The lifetime does not count. -/
theorem client_same {log : List Event} {a b : Answer} (hs : SameRec a b) (h : Client host type log a) : Client host type log b := by
  have key : ∀ (l pre : List Event) (K : Answer → Prop), (∀ a b, SameRec a b → K a → K b) →
      ∀ a b, SameRec a b → clientGo host type pre K l a → clientGo host type pre K l b := by
    intro l
    induction l with
    | nil => intro pre K hK a b hs h; exact hK a b hs h
    | cons e l ih =>
      intro pre K hK a b hs h
      refine ih (pre ++ [e]) _ ?_ a b hs h
      intro a b hs h
      cases e with
      | answer q cb r =>
        simp only [clientStep] at h ⊢
        split
        · rename_i hk
          rw [if_pos hk] at h
          split
          · rename_i h0
            rw [if_pos h0] at h
            exact ⟨hK a b hs h.1, fun h2 => h.2 (h2.trans hs.symm)⟩
          · rename_i h0
            rw [if_neg h0] at h
            exact h.imp (hK a b hs) fun h2 => h2.trans hs
        · rename_i hk
          rw [if_neg hk] at h
          exact hK a b hs h
      | unregistered n t =>
        simp only [clientStep] at h ⊢
        split
        · rename_i hk
          rw [if_pos hk] at h
          exact h
        · rename_i hk
          rw [if_neg hk] at h
          exact hK a b hs h
      | received r => exact hK a b hs h
      | conflict r n t => exact hK a b hs h
      | registered n t cb => exact hK a b hs h
  exact key log [] _ (fun _ _ _ h => h) a b hs h

theorem callback_quiet (log : List Event) : ∀ (evs : List Event), (∀ e ∈ evs, e.quiet) →
    callback (log ++ evs) host type = callback log host type
  | [], _ => by rw [List.append_nil]
  | e :: evs, h => by
    have : log ++ e :: evs = (log ++ [e]) ++ evs := by simp
    rw [this, callback_quiet (log ++ [e]) evs fun e' m => h e' (by simp [m])]
    have := h e (by simp)
    cases e with
    | received r => exact callback_append_received _ _ _ _
    | conflict r n t => exact callback_append_conflict _ _ _ _ _ _
    | answer => exact this.elim
    | registered => exact this.elim
    | unregistered => exact this.elim

theorem callback_registered {log : List Event} {cb : Nat} : callback log host type = some cb →
    Event.registered host type cb ∈ log := by
  have key : ∀ (l : List Event) (s : Option Nat), l.foldl (fun s e =>
      match e with
      | .registered h ty cb => if h = host ∧ ty = type then some cb else s
      | .unregistered h ty => if h = host ∧ ty = type then none else s
      | _ => s) s = some cb → s = some cb ∨ Event.registered host type cb ∈ l := by
    intro l
    induction l with
    | nil => intro s h; exact .inl h
    | cons e l ih =>
      intro s h
      rcases ih _ h with h1 | h1
      · dsimp only at h1
        split at h1
        · split at h1
          · rename_i hh
            cases h1
            obtain ⟨rfl, rfl⟩ := hh
            exact .inr (by simp)
          · exact .inl h1
        · split at h1
          · cases h1
          · exact .inl h1
        · exact .inl h1
      · exact .inr (by simp [h1])
  intro h
  rcases key log none h with h | h
  · cases h
  · exact h

theorem NoAny.sub {log evs : List Event} (h : NoAny host (log ++ evs)) : NoAny host log :=
  fun cb m => h cb (List.mem_append_left _ m)

/-- A query of that name is not one for any type. -/
theorem NoAny.not {c : Core} (h : NoAny host c.log) (hi : CInv c) {q : Nat} {x : Query} (hx : c.qs q = some x)
    (hn : x.name = host) : x.type ≠ 255 := by
  intro ht
  exact h x.cb (callback_registered ((hi.tcb host 255 x.cb).mpr ⟨q, x, hx, hn, ht, rfl⟩))

/-- The entry of that name and type is told to the callback. -/
theorem NoAny.own {c : Core} (h : NoAny host c.log) (hi : CInv c) {i q : Nat} {e : Cached} {x : Query} (me : e ∈ c.cache i)
    (hq : e.q = some q) (hx : c.qs q = some x) (hn : e.rr.name = host) (ht : e.rr.type = type) :
    callback c.log host type = some x.cb := by
  obtain ⟨x', hx', h1, h2⟩ := hi.cq i e q me hq
  rw [hx] at hx'
  cases hx'
  refine (hi.tcb host type x.cb).mpr ⟨q, x, hx, h1.trans hn, ?_, rfl⟩
  rcases h2 with h2 | h2
  · exact h2.trans ht
  · exact absurd h2 (h.not hi hx (h1.trans hn))

theorem qDone_cache {c c' : Core} {q : Nat} {x : Query} (hx : c.qs q = some x) (e : c.qDone q = .ok c') :
    c'.cache = (c.assoc x.name x.type none).cache := by
  unfold Core.qDone at e
  rw [hx] at e
  dsimp only at e
  split at e
  · cases e
    rfl
  · cases e

theorem assoc_to {c : Core} {h : Bytes} {t : Nat} {q : Option Nat} {i : Nat} {e : Cached} (m : e ∈ c.cache i) :
    ∃ e' ∈ (c.assoc h t q).cache i, e'.rr = e.rr ∧ ((e'.q = q ∧ e.rr.name = h ∧ typeFits t e.rr) ∨ e' = e) := by
  unfold Core.assoc Core.chain
  simp only [upd]
  split
  · rename_i hi
    subst hi
    refine ⟨_, List.mem_map_of_mem m, ?_⟩
    split
    · rename_i hc
      rw [is_iff] at hc
      exact ⟨rfl, .inl ⟨rfl, hc⟩⟩
    · exact ⟨rfl, .inr rfl⟩
  · exact ⟨e, m, rfl, .inr rfl⟩

/-- Whatever the program has is in the cache, with its query. -/
def Backed (host : Bytes) (type : Nat) (c : Core) : Prop :=
  NoAny host c.log → ∀ r, Client host type c.log r →
    (callback c.log host type).isSome ∧ ∃ i, ∃ e ∈ c.cache i, e.rr.name = host ∧ e.rr.type = type ∧ SameRec e.rr r ∧ e.q.isSome

theorem erase_keeps {l : List Cached} {k : Nat} {e e' : Cached} (hk : l[k]? = some e) (m : e' ∈ l) (hne : e' ≠ e) :
    e' ∈ l.eraseIdx k := by
  obtain ⟨n, hn⟩ := List.mem_iff_getElem?.mp m
  have : n ≠ k := by
    rintro rfl
    rw [hk] at hn
    cases hn
    exact hne rfl
  rw [List.mem_eraseIdx_iff_getElem?]
  exact ⟨n, this, hn⟩

/-- Entries equal as records are one. -/
theorem CInv.entry_one {c : Core} (h : CInv c) {i j : Nat} {a b : Cached} (ma : a ∈ c.cache i) (mb : b ∈ c.cache j)
    (hs : SameRec a.rr b.rr) : a = b ∧ i = j := by
  have e : i = j := by rw [← h.cbucket i a ma, ← h.cbucket j b mb, hs.1]
  subst e
  refine ⟨?_, rfl⟩
  have hp := h.cuniq i
  generalize c.cache i = l at ma mb hp
  induction l with
  | nil => cases ma
  | cons x l ih =>
    obtain ⟨h1, h2⟩ := List.pairwise_cons.mp hp
    rcases List.mem_cons.mp ma with rfl | ma
    · rcases List.mem_cons.mp mb with rfl | mb
      · rfl
      · exact absurd hs (h1 b mb)
    · rcases List.mem_cons.mp mb with rfl | mb
      · exact absurd hs.symm (h1 a (by assumption))
      · exact ih ma mb h2

theorem Backed.step {c c' : Core} (hb : Backed host type c) (n : VStep env c c') : Backed host type c' := by
  cases n with
  | frame h =>
    intro hno r hr
    obtain ⟨evs, hlog, hq⟩ := h.log
    rw [hlog] at hno hr ⊢
    rw [client_quiet _ _ hq] at hr
    rw [callback_quiet _ _ hq, h.cache]
    exact hb hno.sub r hr
  | ttls f h hf =>
    intro hno r hr
    obtain ⟨h1, i, e, me, a, b, hs, hq⟩ := hb hno r hr
    obtain ⟨e', me', h2, t, h3⟩ := (hf i).to e me
    refine ⟨h1, i, e', me', by rw [h3]; exact a, by rw [h3]; exact b, ?_, by rw [h2]; exact hq⟩
    rw [h3]
    exact hs
  | @lose i k e0 h hk hq0 =>
    intro hno r hr
    obtain ⟨h1, j, e, me, a, b, hs, hq⟩ := hb hno r hr
    refine ⟨h1, j, e, ?_, a, b, hs, hq⟩
    simp only [upd]
    split
    · rename_i hj
      subst hj
      refine erase_keeps hk me ?_
      rintro rfl
      rw [hq0] at hq
      cases hq
    · exact me
  | @lost i k q e0 x h hk hq0 hx =>
    intro hno r hr
    have hno' : NoAny host c.log := NoAny.sub hno
    have hr : Client host type (c.log ++ [.answer q x.cb e0.rr.gone]) r := hr
    rw [client_append] at hr
    have hr' : Client host type c.log r ∧ (e0.rr.name = host → e0.rr.type = type → ¬ SameRec e0.rr r) := by
      simp only [clientStep] at hr
      split at hr
      · rw [if_pos (show e0.rr.gone.ttl = 0 from rfl)] at hr
        exact ⟨hr.1, fun _ _ => hr.2⟩
      · rename_i hne
        exact ⟨hr, fun a b => absurd ⟨hno'.own h (List.mem_of_getElem? hk) hq0 hx a b, a, b⟩ hne⟩
    obtain ⟨h1, j, e, me, a, b, hs, hq⟩ := hb hno' r hr'.1
    show (callback (c.log ++ [.answer q x.cb e0.rr.gone]) host type).isSome ∧ _
    rw [callback_append_answer]
    refine ⟨h1, j, e, ?_, a, b, hs, hq⟩
    simp only [upd]
    split
    · rename_i hj
      subst hj
      refine erase_keeps hk me ?_
      rintro rfl
      exact hr'.2 a b hs
    · exact me
  | @add r0 src h hw hn hq0 =>
    intro hno r hr
    obtain ⟨h1, j, e, me, a, b, hs, hq⟩ := hb hno r hr
    refine ⟨h1, j, e, ?_, a, b, hs, hq⟩
    simp only [Core.setChain, upd]
    split
    · rename_i hj
      subst hj
      exact List.mem_cons_of_mem _ me
    · exact me
  | @told r0 src q x h hw hn hx h1 h2 =>
    intro hno r hr
    have hno' : NoAny host c.log := NoAny.sub hno
    have hr : Client host type (c.log ++ [.answer q x.cb (Core.newEntry r0 src (c.expiry r0))]) r := hr
    rw [client_append] at hr
    show (callback (c.log ++ [.answer q x.cb (Core.newEntry r0 src (c.expiry r0))]) host type).isSome ∧ _
    rw [callback_append_answer]
    have hr' : Client host type c.log r ∨ (r0.name = host ∧ r0.type = type ∧ SameRec (Core.newEntry r0 src (c.expiry r0)) r) := by
      simp only [clientStep, newEntry_name, newEntry_type] at hr
      split at hr
      · rename_i hk
        split at hr
        · exact .inl hr.1
        · exact hr.imp id fun h => ⟨hk.2.1, hk.2.2, h⟩
      · exact .inl hr
    rcases hr' with hr' | ⟨e1, e2, hs⟩
    · obtain ⟨h1, j, e, me, a, b, hs, hq⟩ := hb hno' r hr'
      refine ⟨h1, j, e, ?_, a, b, hs, hq⟩
      simp only [upd]
      split
      · rename_i hj
        subst hj
        exact List.mem_cons_of_mem _ me
      · exact me
    · refine ⟨?_, bucket r0.name lprime, ⟨Core.newEntry r0 src (c.expiry r0), some q⟩, by simp only [upd_same, List.mem_cons, true_or],
        (newEntry_name ..).trans e1, (newEntry_type ..).trans e2, hs, rfl⟩
      rw [(h.tcb host type x.cb).mpr ⟨q, x, hx, h1.trans e1, h2.trans e2, rfl⟩]
      rfl
  | @setCb q x h hx cb =>
    intro hno r hr
    have hr : Client host type (c.log ++ [.registered x.name x.type cb]) r := hr
    rw [client_append] at hr
    obtain ⟨h1, rest⟩ := hb (NoAny.sub hno) r hr
    refine ⟨?_, rest⟩
    show (callback (c.log ++ [.registered x.name x.type cb]) host type).isSome
    rw [callback_append_registered]
    split
    · rfl
    · exact h1
  | @newq h0 t0 h hn cb =>
    intro hno r hr
    have hr : Client host type (c.log ++ [.registered h0 t0 cb]) r := hr
    rw [client_append] at hr
    obtain ⟨h1, j, e, me, a, b, hs, hq⟩ := hb (NoAny.sub hno) r hr
    refine ⟨?_, ?_⟩
    · show (callback (c.log ++ [.registered h0 t0 cb]) host type).isSome
      rw [callback_append_registered]
      split
      · rfl
      · exact h1
    · obtain ⟨e', me', f1, f2⟩ := assoc_to (h := h0) (t := t0) (q := some c.nextq) me
      refine ⟨j, e', me', by rw [f1]; exact a, by rw [f1]; exact b, by rw [f1]; exact hs, ?_⟩
      rcases f2 with ⟨f2, _⟩ | f2
      · rw [f2]; rfl
      · rw [f2]; exact hq
  | @endq _ q x h hx e =>
    obtain ⟨c1, e1, s1, _, hlog, _⟩ := h.qDone hx
    rw [e] at e1
    cases e1
    intro hno r hr
    rw [hlog] at hno hr ⊢
    have hno' := hno.sub
    rw [client_append] at hr
    rw [callback_append_unregistered]
    simp only [clientStep] at hr
    split at hr
    · exact hr.elim
    · rename_i hne
      rw [if_neg hne]
      obtain ⟨h1, j, e0, me, a, b, hs, hq⟩ := hb hno' r hr
      refine ⟨h1, j, ?_⟩
      rw [qDone_cache hx e]
      obtain ⟨e', me', f1, f2⟩ := assoc_to (h := x.name) (t := x.type) (q := none) me
      refine ⟨e', me', by rw [f1]; exact a, by rw [f1]; exact b, by rw [f1]; exact hs, ?_⟩
      rcases f2 with ⟨_, f3, f4⟩ | f2
      · exfalso
        rcases f4 with f4 | f4
        · exact hne ⟨f3.symm.trans a, f4.trans b⟩
        · exact hno'.not h hx (f3.symm.trans a) f4
      · rw [f2]; exact hq
  | reset h hx =>
    intro hno r hr
    exact hb hno r hr
  | asked h hx =>
    intro hno r hr
    exact hb hno r hr

theorem Reach.backed {d : D Ptrs} (h : Reach env d) : Backed host type d.c :=
  h.v (fun _ _ _ _ _ hr => hr.elim) fun _ _ hp n => hp.step n

/-! ### The other direction -/

/-- From a point of the history on, either the query has ended, or it is registered and the
program has every record in the cache but those of a set. -/
def Complete (host : Bytes) (type : Nat) (S : Answer → Prop) (log0 : List Event) (c : Core) : Prop :=
  ∃ evs, c.log = log0 ++ evs ∧ (Event.unregistered host type ∉ evs → NoAny host c.log →
    (callback c.log host type).isSome ∧
    ∀ i, ∀ e ∈ c.cache i, e.rr.name = host → e.rr.type = type → Client host type c.log e.rr ∨ S e.rr)

theorem Complete.step {c c' : Core} {S : Answer → Prop} {log0 : List Event} (hS : ∀ a b, SameRec a b → S a → S b)
    (hc : Complete host type S log0 c) (n : VStep env c c') : Complete host type S log0 c' := by
  obtain ⟨evs, hl, hp⟩ := hc
  -- no change of the cache or of the history that matters
  have same : ∀ c1 : Core, c1.log = c.log → c1.cache = c.cache → Complete host type S log0 c1 := by
    intro c1 e1 e2
    refine ⟨evs, e1.trans hl, ?_⟩
    rw [e1, e2]
    exact hp
  have clientR : ∀ {h' : Bytes} {t' cb : Nat} {r : Answer}, Client host type c.log r →
      Client host type (c.log ++ [.registered h' t' cb]) r := by
    intro h' t' cb r hr
    rw [client_append]
    exact hr
  cases n with
  | frame h =>
    obtain ⟨ev1, hlog, hq⟩ := h.log
    refine ⟨evs ++ ev1, by rw [hlog, hl, List.append_assoc], fun hu hno => ?_⟩
    rw [hlog] at hno ⊢
    rw [client_quiet _ _ hq, callback_quiet _ _ hq, h.cache]
    exact hp (fun m => hu (List.mem_append_left _ m)) hno.sub
  | ttls f h hf =>
    refine ⟨evs, hl, fun hu hno => ?_⟩
    obtain ⟨h1, h2⟩ := hp hu hno
    refine ⟨h1, fun i e me a b => ?_⟩
    obtain ⟨e', me', _, t, h3⟩ := (hf i).back e me
    rw [h3] at a b
    have hs : SameRec e'.rr e.rr := by
      rw [h3]
      exact SameRec.refl e'.rr
    rcases h2 i e' me' a b with h4 | h4
    · exact .inl (client_same hs h4)
    · exact .inr (hS _ _ hs h4)
  | @lose i k e0 h hk hq0 =>
    refine ⟨evs, hl, fun hu hno => ?_⟩
    obtain ⟨h1, h2⟩ := hp hu hno
    refine ⟨h1, fun j e me a b => h2 j e ?_ a b⟩
    simp only [upd] at me
    split at me
    · rename_i hj
      subst hj
      exact (List.eraseIdx_sublist _ k).subset me
    · exact me
  | @lost i k q e0 x h hk hq0 hx =>
    refine ⟨evs ++ [.answer q x.cb e0.rr.gone], by simp [hl], fun hu hno => ?_⟩
    have hno' : NoAny host c.log := NoAny.sub hno
    obtain ⟨h1, h2⟩ := hp (fun m => hu (List.mem_append_left _ m)) hno'
    show (callback (c.log ++ [.answer q x.cb e0.rr.gone]) host type).isSome ∧ ∀ j, ∀ e ∈ upd c.cache i ((c.cache i).eraseIdx k) j, _
    rw [callback_append_answer, client_append]
    refine ⟨h1, fun j e me a b => ?_⟩
    have hm : e ∈ c.cache j ∧ ¬ SameRec e0.rr e.rr := by
      simp only [upd] at me
      split at me
      · rename_i hj
        subst hj
        refine ⟨(List.eraseIdx_sublist _ k).subset me, fun hs => ?_⟩
        obtain ⟨n, hne, hn⟩ := List.mem_eraseIdx_iff_getElem?.mp me
        have := h.cuniq j
        rw [List.pairwise_iff_getElem] at this
        obtain ⟨hk1, hk2⟩ := List.getElem?_eq_some_iff.mp hk
        obtain ⟨hn1, hn2⟩ := List.getElem?_eq_some_iff.mp hn
        rcases Nat.lt_or_gt_of_ne hne with hlt | hlt
        · exact this n k hn1 hk1 hlt (by rw [hk2, hn2]; exact hs.symm)
        · exact this k n hk1 hn1 hlt (by rw [hk2, hn2]; exact hs)
      · rename_i hj
        refine ⟨me, fun hs => hj ?_⟩
        exact ((h.entry_one (List.mem_of_getElem? hk) me hs).2).symm
    refine (h2 j e hm.1 a b).imp (fun h3 => ?_) id
    simp only [clientStep]
    split
    · rw [if_pos (show e0.rr.gone.ttl = 0 from rfl)]
      exact ⟨h3, hm.2⟩
    · exact h3
  | @add r0 src h hw hn hq0 =>
    refine ⟨evs, hl, fun hu hno => ?_⟩
    obtain ⟨h1, h2⟩ := hp hu hno
    refine ⟨h1, fun j e me a b => ?_⟩
    simp only [Core.setChain, upd] at me
    split at me
    · rename_i hj
      subst hj
      rcases List.mem_cons.mp me with rfl | me
      · exfalso
        obtain ⟨cb, hcb⟩ := Option.isSome_iff_exists.mp h1
        obtain ⟨q, x, hx, e1, e2, _⟩ := (h.tcb host type cb).mp hcb
        rw [newEntry_name] at a
        rw [newEntry_type] at b
        exact hq0 q x hx ⟨e1.trans a.symm, e2.trans b.symm⟩
      · exact h2 _ e me a b
    · exact h2 j e me a b
  | @told r0 src q x h hw hn hx g1 g2 =>
    refine ⟨evs ++ [.answer q x.cb (Core.newEntry r0 src (c.expiry r0))], by simp [hl], fun hu hno => ?_⟩
    have hno' : NoAny host c.log := NoAny.sub hno
    obtain ⟨h1, h2⟩ := hp (fun m => hu (List.mem_append_left _ m)) hno'
    show (callback (c.log ++ [.answer q x.cb (Core.newEntry r0 src (c.expiry r0))]) host type).isSome ∧
      ∀ j, ∀ e ∈ upd c.cache (bucket r0.name lprime) (_ :: c.cache (bucket r0.name lprime)) j, _
    rw [callback_append_answer, client_append]
    have httl : (Core.newEntry r0 src (c.expiry r0)).ttl ≠ 0 := by
      rw [newEntry_ttl]
      unfold Core.expiry
      omega
    refine ⟨h1, fun j e me a b => ?_⟩
    have old : e ∈ c.cache j → clientStep host type (callback c.log host type) (Client host type c.log)
        (.answer q x.cb (Core.newEntry r0 src (c.expiry r0))) e.rr ∨ S e.rr := by
      intro me
      refine (h2 j e me a b).imp (fun h3 => ?_) id
      simp only [clientStep]
      split
      · exact .inl h3
      · exact h3
    simp only [upd] at me
    split at me
    · rename_i hj
      subst hj
      rcases List.mem_cons.mp me with rfl | me
      · left
        simp only [clientStep]
        have a' := a
        have b' := b
        rw [newEntry_name] at a'
        rw [newEntry_type] at b'
        rw [if_pos ⟨(h.tcb host type x.cb).mpr ⟨q, x, hx, g1.trans a', g2.trans b', rfl⟩, a, b⟩, if_neg httl]
        exact .inr (SameRec.refl _)
      · exact old me
    · exact old me
  | @setCb q x h hx cb =>
    refine ⟨evs ++ [.registered x.name x.type cb], by simp [hl], fun hu hno => ?_⟩
    obtain ⟨h1, h2⟩ := hp (fun m => hu (List.mem_append_left _ m)) (NoAny.sub hno)
    refine ⟨?_, fun j e me a b => (h2 j e me a b).imp clientR id⟩
    show (callback (c.log ++ [.registered x.name x.type cb]) host type).isSome
    rw [callback_append_registered]
    split
    · rfl
    · exact h1
  | @newq h0 t0 h hn cb =>
    refine ⟨evs ++ [.registered h0 t0 cb], by simp [hl, Core.addQuery], fun hu hno => ?_⟩
    obtain ⟨h1, h2⟩ := hp (fun m => hu (List.mem_append_left _ m)) (NoAny.sub hno)
    refine ⟨?_, fun j e me a b => ?_⟩
    · show (callback (c.log ++ [.registered h0 t0 cb]) host type).isSome
      rw [callback_append_registered]
      split
      · rfl
      · exact h1
    · obtain ⟨e', me', f1, _⟩ := assoc_mem (c := c) (host := h0) (type := t0) (q := some c.nextq) me
      rw [f1] at a b ⊢
      exact (h2 j e' me' a b).imp clientR id
  | @endq _ q x h hx e =>
    obtain ⟨c1, e1, s1, _, hlog, _⟩ := h.qDone hx
    rw [e] at e1
    cases e1
    refine ⟨evs ++ [.unregistered x.name x.type], by rw [hlog, hl, List.append_assoc], fun hu hno => ?_⟩
    rw [hlog] at hno ⊢
    obtain ⟨h1, h2⟩ := hp (fun m => hu (List.mem_append_left _ m)) hno.sub
    have hne : ¬ (x.name = host ∧ x.type = type) := by
      rintro ⟨rfl, rfl⟩
      exact hu (by simp)
    rw [callback_append_unregistered, if_neg hne, client_append, qDone_cache hx e]
    refine ⟨h1, fun j e0 me a b => ?_⟩
    obtain ⟨e', me', f1, _⟩ := assoc_mem me
    rw [f1] at a b ⊢
    refine (h2 j e' me' a b).imp (fun h3 => ?_) id
    simp only [clientStep]
    rw [if_neg hne]
    exact h3
  | reset h hx => exact same _ rfl rfl
  | asked h hx => exact same _ rfl rfl

end Mdns
