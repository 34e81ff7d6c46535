import Verif.Model.Process
import Verif.Props.Iface

/-!
# C70, C71: descriptors and contexts of the daemon
-/

namespace Mdns.Proc

open Mdns.Iface (Iface Ifa)

/-! ### Specification -/

/-- The descriptors of an interface. -/
def Slot.fds (x : Slot) : List Nat := x.sd.toList ++ x.sd6.toList

/-- The contexts of an interface. -/
def Slot.ctxs (x : Slot) : List Nat := x.mdns.toList ++ x.mdns6.toList

/-- The code ends without undefined behaviour and, unless it ends the process, as described; it ends with `FD_SET` of a
large descriptor only if `L`, and the process only if `X`. -/
def Spec {α : Type} (L X : Prop) (m : M α) (s : Sys) (Q : α → Sys → Prop) : Prop :=
  match m s with
  | .ok a s => Q a s
  | .exit _ => X
  | .ub => False
  | .large => L

/-- The open descriptors and the allocated contexts are exactly these, each once. -/
structure Own (s : Sys) (fs cs : List Nat) : Prop where
  fds : s.fds.Perm fs
  fnodup : fs.Nodup
  ctxs : s.ctxs.Perm cs
  cnodup : cs.Nodup
  next : ∀ c ∈ cs, c < s.next

/-! ### Rules -/

/-- Parameters of the proofs: `P` holds for all descriptors the system gives, as long as less than `N` are open, or
always if `T`. -/
structure Par where
  P : Nat → Prop
  T : Prop
  N : Nat

/-- Some descriptor is too large. -/
def Par.L (p : Par) : Prop := ∃ fd, p.P fd ∧ ¬ fd < 1024

structure Par.Ok (p : Par) (X : Prop) (e : Env) : Prop where
  fresh : e.Fresh
  small : ∀ l, (p.T ∨ l.length < p.N) → p.P (e.fd l)
  goes : X ∨ ∀ n, e.sock4 n = .bound ∧ e.mem4 n = true ∧ e.mem6 n = true

variable {α β : Type} {L X : Prop} {p : Par}

theorem Spec.bind {m : M α} {f : α → M β} {s : Sys} {Q : α → Sys → Prop} {Q' : β → Sys → Prop} (h : Spec L X m s Q)
    (hf : ∀ a s', Q a s' → Spec L X (f a) s' Q') : Spec L X (m >>= f) s Q' := by
  unfold Spec at *
  show match (match m s with | .ok a s => f a s | .exit s => .exit s | .ub => .ub | .large => .large : R β) with
    | .ok a s => Q' a s
    | .exit _ => X
    | .ub => False
    | .large => L
  cases e : m s with
  | ok a s' => rw [e] at h; exact hf a s' h
  | exit s' => rw [e] at h; exact h
  | ub => rw [e] at h; exact h
  | large => rw [e] at h; exact h

theorem Spec.pure {a : α} {s : Sys} {Q : α → Sys → Prop} (h : Q a s) : Spec L X (pure a : M α) s Q := h

theorem Spec.mono {m : M α} {s : Sys} {Q Q' : α → Sys → Prop} (h : Spec L X m s Q) (hq : ∀ a s', Q a s' → Q' a s') :
    Spec L X m s Q' := by
  unfold Spec at *
  cases e : m s with
  | ok a s' => rw [e] at h; exact hq a s' h
  | exit s' => rw [e] at h; exact h
  | ub => rw [e] at h; exact h
  | large => rw [e] at h; exact h

theorem Own.perm {s : Sys} {fs cs fs' cs' : List Nat} (h : Own s fs cs) (hf : fs.Perm fs') (hc : cs.Perm cs') : Own s fs' cs' :=
  ⟨h.fds.trans hf, hf.nodup_iff.mp h.fnodup, h.ctxs.trans hc, hc.nodup_iff.mp h.cnodup,
    fun c m => h.next c (hc.mem_iff.mpr m)⟩

theorem spec_close {s : Sys} {fd : Nat} {F C : List Nat} (h : Own s (fd :: F) C) :
    Spec L X (close fd) s fun _ s' => Own s' F C := by
  unfold Spec close
  have : fd ∈ s.fds := h.fds.mem_iff.mpr (by simp)
  simp only [this, if_true]
  refine ⟨?_, (List.nodup_cons.mp h.fnodup).2, h.ctxs, h.cnodup, h.next⟩
  have := h.fds.erase fd
  simpa using this

theorem spec_useFd {s : Sys} {fd : Nat} {F C : List Nat} (h : Own s F C) (hm : fd ∈ F) :
    Spec L X (useFd fd) s fun _ s' => s = s' := by
  unfold Spec useFd
  have : fd ∈ s.fds := h.fds.mem_iff.mpr hm
  simp only [this, if_true]

theorem spec_useCtx {s : Sys} {c : Nat} {F C : List Nat} (h : Own s F C) (hm : c ∈ C) :
    Spec L X (useCtx (some c)) s fun _ s' => s = s' := by
  unfold Spec useCtx
  have : c ∈ s.ctxs := h.ctxs.mem_iff.mpr hm
  simp only [this, if_true]

theorem spec_step {s : Sys} {fd c : Nat} {F C : List Nat} (h : Own s F C) (hm : fd ∈ F) (hc : c ∈ C) :
    Spec L X (step (some c) fd) s fun _ s' => s = s' := by
  unfold step
  refine (spec_useCtx h hc).bind ?_
  rintro _ _ rfl
  exact spec_useFd h hm

theorem spec_free {s : Sys} {c : Nat} {F C : List Nat} (h : Own s F (c :: C)) :
    Spec L X (free (some c)) s fun _ s' => Own s' F C := by
  unfold Spec free
  have : c ∈ s.ctxs := h.ctxs.mem_iff.mpr (by simp)
  simp only [this, if_true]
  refine ⟨h.fds, h.fnodup, ?_, (List.nodup_cons.mp h.cnodup).2, fun c m => h.next c (by simp [m])⟩
  have := h.ctxs.erase c
  simpa using this

theorem spec_new {s : Sys} {mem : Bool} {F C : List Nat} (h : Own s F C) :
    Spec L X (new mem) s fun c s' => Own s' F (c.toList ++ C) ∧ (mem = true → c.isSome) := by
  unfold Spec new
  cases mem with
  | false => exact ⟨h, fun h => (by cases h)⟩
  | true =>
    refine ⟨⟨h.fds, h.fnodup, h.ctxs.cons _, List.nodup_cons.mpr ⟨fun m => ?_, h.cnodup⟩, fun c m => ?_⟩, fun _ => rfl⟩
    · exact Nat.lt_irrefl _ (h.next _ m)
    · show c < s.next + 1
      rcases List.mem_cons.mp m with rfl | m
      · omega
      · have := h.next c m
        omega

theorem spec_socket {s : Sys} {e : Env} (he : p.Ok X e) {r : Sock} {F C : List Nat} (h : Own s F C)
    (hn : p.T ∨ F.length < p.N) :
    Spec L X (socket e r) s fun o s' => Own s' (o.toList ++ F) C ∧ (∀ fd ∈ o.toList, p.P fd) ∧
      (r = .bound → o.isSome) := by
  have h0 : Spec L X (socket.opened e) s fun fd s' => Own s' (fd :: F) C ∧ p.P fd := by
    refine ⟨⟨h.fds.cons _, List.nodup_cons.mpr ⟨fun m => ?_, h.fnodup⟩, h.ctxs, h.cnodup, h.next⟩, ?_⟩
    · exact he.fresh s.fds (h.fds.mem_iff.mpr m)
    · exact he.small _ (by rw [h.fds.length_eq]; exact hn)
  unfold socket
  cases r with
  | none => exact ⟨h, by simp, fun h => (by cases h)⟩
  | unbound =>
    refine h0.bind ?_
    rintro fd s1 ⟨h1, _⟩
    refine (spec_useFd h1 (by simp)).bind ?_
    rintro _ _ rfl
    refine (spec_close h1).bind ?_
    intro _ s2 h2
    exact ⟨h2, by simp, fun h => (by cases h)⟩
  | bound =>
    refine h0.bind ?_
    rintro fd s1 ⟨h1, hp⟩
    refine (spec_useFd h1 (by simp)).bind ?_
    rintro _ _ rfl
    exact ⟨h1, by simpa using hp, fun _ => rfl⟩

/-! ### Interfaces -/

/-- There is a context for every socket, and the descriptors are as the system gives them. -/
structure Good (p : Par) (x : Slot) : Prop where
  v4 : x.sd.isSome → x.mdns.isSome
  v6 : x.sd6.isSome → x.mdns6.isSome
  small : ∀ fd ∈ x.fds, p.P fd

theorem spec_freeIface {x : Slot} (g : Good p x) {s : Sys} {F C : List Nat} (h : Own s (x.fds ++ F) (x.ctxs ++ C)) :
    Spec L X (freeIface x) s fun _ s' => Own s' F C := by
  obtain ⟨i, sd, sd6, mdns, mdns6⟩ := x
  have v4 : sd.isSome → mdns.isSome := g.v4
  have v6 : sd6.isSome → mdns6.isSome := g.v6
  unfold Slot.fds Slot.ctxs at h
  -- the part for IPv6
  have six : ∀ s, Own s (sd6.toList ++ F) (mdns6.toList ++ C) →
      Spec L X (if mdns6.isSome then do
        shutdown mdns6
        whenSome sd6 (step mdns6)
        free mdns6
        whenSome sd6 close
      else Pure.pure ()) s fun _ s' => Own s' F C := by
    intro s h
    cases mdns6 with
    | none =>
      cases sd6 with
      | none => exact h
      | some fd => cases v6 rfl
    | some c =>
      refine (spec_useCtx h (by simp) : Spec L X (shutdown (some c)) s _).bind ?_
      rintro _ _ rfl
      cases sd6 with
      | none =>
        refine Spec.bind (Spec.pure (Q := fun _ s' => s = s') rfl : Spec L X (whenSome none (step (some c))) s _) ?_
        rintro _ _ rfl
        refine (spec_free h).bind ?_
        intro _ s2 h2
        exact h2
      | some fd =>
        refine (spec_step h (by simp) (by simp) : Spec L X (whenSome (some fd) (step (some c))) s _).bind ?_
        rintro _ _ rfl
        refine (spec_free h).bind ?_
        intro _ s2 h2
        exact (spec_close h2 : Spec L X (whenSome (some fd) close) s2 _)
  unfold freeIface
  cases mdns with
  | none =>
    cases sd with
    | some fd => cases v4 rfl
    | none => exact six s h
  | some c =>
    have h : Own s (sd.toList ++ (sd6.toList ++ F)) (c :: (mdns6.toList ++ C)) := by simpa using h
    refine (spec_useCtx h (by simp) : Spec L X (shutdown (some c)) s _).bind ?_
    rintro _ _ rfl
    cases sd with
    | none =>
      refine Spec.bind (Spec.pure (Q := fun _ s' => s = s') rfl : Spec L X (whenSome none (step (some c))) s _) ?_
      rintro _ _ rfl
      refine (spec_free h).bind ?_
      intro _ s2 h2
      refine Spec.bind (Spec.pure (Q := fun _ s' => s2 = s') rfl : Spec L X (whenSome none close) s2 _) ?_
      rintro _ _ rfl
      exact six _ h2
    | some fd =>
      refine (spec_step h (by simp) (by simp) : Spec L X (whenSome (some fd) (step (some c))) s _).bind ?_
      rintro _ _ rfl
      refine (spec_free h).bind ?_
      intro _ s2 h2
      refine (spec_close h2 : Spec L X (whenSome (some fd) close) s2 _).bind ?_
      intro _ s3 h3
      exact six _ h3

theorem spec_confInit {x : Slot} {s : Sys} {F C : List Nat} (h : Own s F (x.ctxs ++ C)) (hm : x.mdns.isSome) :
    Spec L X (confInit x) s fun y s' => s = s' ∧ y = { x with i := { x.i with conf := some (x.i.in4, x.i.in6) } } := by
  obtain ⟨i, sd, sd6, mdns, mdns6⟩ := x
  cases mdns with
  | none => cases hm
  | some c =>
    unfold Slot.ctxs at h
    unfold confInit
    refine (spec_useCtx h (by simp)).bind ?_
    rintro _ _ rfl
    cases mdns6 with
    | none => exact ⟨rfl, rfl⟩
    | some c6 =>
      refine (spec_useCtx h (by simp) : Spec L X (useCtx (some c6)) s _).bind ?_
      rintro _ _ rfl
      exact ⟨rfl, rfl⟩

theorem spec_context4 {e : Env} (he : p.Ok X e) {x : Slot} (g : Good p x) {s : Sys} {F C : List Nat}
    (h : Own s (x.fds ++ F) (x.ctxs ++ C)) :
    Spec L X (context4 e x) s fun y s' => Own s' (y.fds ++ F) (y.ctxs ++ C) ∧ Good p y ∧ y.i = x.i ∧ y.mdns.isSome := by
  unfold context4
  split
  · rename_i hm
    exact ⟨h, g, rfl, hm⟩
  · rename_i hm
    refine (spec_new h).bind ?_
    rintro c s1 ⟨h1, hc⟩
    cases c with
    | none => exact he.goes.elim id fun hg => (by cases hc (hg _).2.1)
    | some c =>
      obtain ⟨i, sd, sd6, mdns, mdns6⟩ := x
      cases mdns with
      | some c => exact absurd rfl hm
      | none => exact ⟨h1, ⟨fun _ => rfl, g.v6, g.small⟩, rfl, rfl⟩

theorem spec_socket4 {e : Env} (he : p.Ok X e) {x : Slot} (g : Good p x) {s : Sys} {F C : List Nat}
    (h : Own s (x.fds ++ F) (x.ctxs ++ C)) (hn : p.T ∨ F.length + 2 ≤ p.N) (hm : x.mdns.isSome) :
    Spec L X (socket4 e x) s fun y s' => Own s' (y.fds ++ F) (y.ctxs ++ C) ∧ Good p y ∧ y.i = x.i ∧ y.mdns.isSome ∧
      y.sd.isSome := by
  unfold socket4
  split
  · rename_i hs
    exact ⟨h, g, rfl, hm, hs⟩
  · rename_i hs
    obtain ⟨i, sd, sd6, mdns, mdns6⟩ := x
    cases sd with
    | some fd => exact absurd rfl hs
    | none =>
      refine (spec_socket he h ?_).bind ?_
      · refine hn.imp id fun hn => ?_
        unfold Slot.fds
        cases sd6 <;> simp <;> omega
      · rintro o s2 ⟨h2, hp, ho⟩
        cases o with
        | none => exact he.goes.elim id fun hg => (by cases ho (hg _).1)
        | some fd =>
          refine ⟨h2, ⟨fun _ => hm, g.v6, fun f m => ?_⟩, rfl, hm, rfl⟩
          rcases List.mem_cons.mp m with rfl | m
          · exact hp _ (by simp)
          · exact g.small f m

theorem spec_socket6 {e : Env} (he : p.Ok X e) {x : Slot} (g : Good p x) {s : Sys} {F C : List Nat}
    (h : Own s (x.fds ++ F) (x.ctxs ++ C)) (hn : p.T ∨ F.length + 2 ≤ p.N) (hm : x.mdns.isSome) (hs : x.sd.isSome) :
    Spec L X (socket6 e x) s fun y s' => Own s' (y.fds ++ F) (y.ctxs ++ C) ∧ (∀ fd ∈ y.fds, p.P fd) ∧ y.i = x.i ∧
      y.mdns.isSome ∧ y.sd.isSome ∧ (e.sock6 x.i.name = .bound → y.sd6.isSome) := by
  unfold socket6
  split
  · rename_i h6
    exact ⟨h, g.small, rfl, hm, hs, fun _ => h6⟩
  · rename_i h6
    obtain ⟨i, sd, sd6, mdns, mdns6⟩ := x
    cases sd6 with
    | some fd => exact absurd rfl h6
    | none =>
      refine (spec_socket he h ?_).bind ?_
      · refine hn.imp id fun hn => ?_
        unfold Slot.fds
        cases sd <;> simp <;> omega
      · rintro o s2 ⟨h2, hp, ho⟩
        refine ⟨h2.perm ?_ (List.Perm.refl _), fun f m => ?_, rfl, hm, hs, ho⟩
        · unfold Slot.fds
          simp only [Option.toList_none, List.append_nil]
          rw [← List.append_assoc]
          exact List.Perm.append_right F List.perm_append_comm
        · rcases List.mem_append.mp m with m | m
          · exact g.small f (List.mem_append_left _ m)
          · exact hp f m

theorem spec_context6 {e : Env} (he : p.Ok X e) {x : Slot} (hp : ∀ fd ∈ x.fds, p.P fd) {s : Sys} {F C : List Nat}
    (h : Own s (x.fds ++ F) (x.ctxs ++ C)) (hm : x.mdns.isSome) (hs : x.sd.isSome) :
    Spec L X (context6 e x) s fun y s' => Own s' (y.fds ++ F) (y.ctxs ++ C) ∧ Good p y ∧ y.i = x.i ∧ y.mdns.isSome ∧
      y.sd.isSome ∧ y.sd6 = x.sd6 := by
  unfold context6
  split
  · rename_i hc
    refine (spec_new h).bind ?_
    rintro c s2 ⟨h2, hm6⟩
    cases c with
    | none => exact he.goes.elim id fun hg => (by cases hm6 (hg _).2.2)
    | some c =>
      obtain ⟨i, sd, sd6, mdns, mdns6⟩ := x
      cases mdns6 with
      | some c => exact absurd rfl hc.2
      | none =>
        refine ⟨h2.perm (List.Perm.refl _) ?_, ⟨fun _ => hm, fun _ => rfl, hp⟩, rfl, hm, hs, rfl⟩
        unfold Slot.ctxs
        simp only [Option.toList_none, List.append_nil, Option.toList_some]
        rw [← List.append_assoc]
        exact List.Perm.append_right C List.perm_append_comm
  · rename_i hc
    refine ⟨h, ⟨fun _ => hm, fun h => ?_, hp⟩, rfl, hm, hs, rfl⟩
    exact Classical.byContradiction fun hn => hc ⟨h, hn⟩

/-- The descriptors and contexts of what is left of an interface. -/
def ofds (o : Option Slot) : List Nat := o.toList.flatMap Slot.fds
def octxs (o : Option Slot) : List Nat := o.toList.flatMap Slot.ctxs

theorem spec_setupIface {e : Env} (he : p.Ok X e) {x : Slot} (g : Good p x) {s : Sys} {F C : List Nat}
    (h : Own s (x.fds ++ F) (x.ctxs ++ C)) (hn : p.T ∨ F.length + 2 ≤ p.N) :
    Spec L X (setupIface e x) s fun y s' => Own s' (ofds y ++ F) (octxs y ++ C) ∧ y.map (·.i) = Iface.setup1 x.i ∧
      ∀ z ∈ y, Good p z ∧ ((x.i.changed = true → z.mdns.isSome ∧ z.sd.isSome ∧
        (e.sock6 x.i.name = .bound → z.sd6.isSome)) ∧ (x.i.changed = false → z = x)) := by
  unfold setupIface Iface.setup1
  split
  · rename_i hc
    refine ⟨by simpa [ofds, octxs] using h, rfl, ?_⟩
    intro z hz
    cases hz
    exact ⟨g, fun hx => (by rw [hx] at hc; cases hc), fun _ => rfl⟩
  · rename_i hc
    split
    · refine (spec_freeIface g h).bind ?_
      intro _ s1 h1
      exact ⟨h1, rfl, fun z hz => (by cases hz)⟩
    · refine (spec_context4 he g h).bind ?_
      rintro ya sa ⟨ha, ga, ea, ma⟩
      refine (spec_socket4 he ga ha hn ma).bind ?_
      rintro yb sb ⟨hb, gb, eb, mb, tb⟩
      refine (spec_socket6 he gb hb hn mb tb).bind ?_
      rintro yc sc ⟨hc', gc, ec, mc, tc, uc⟩
      refine (spec_context6 he gc hc' mc tc).bind ?_
      rintro y2 s2 ⟨h2, g2, e2, m2, t2, u2⟩
      refine (spec_confInit h2 m2).bind ?_
      rintro y3 _ ⟨rfl, rfl⟩
      refine ⟨by simpa [ofds, octxs, Slot.fds, Slot.ctxs] using h2, ?_, ?_⟩
      · rw [ec, eb, ea] at e2
        simp [e2]
      · intro z hz
        cases hz
        refine ⟨⟨g2.v4, g2.v6, g2.small⟩, fun _ => ⟨m2, t2, fun hb => ?_⟩, fun hx => absurd (by simp [hx]) hc⟩
        show y2.sd6.isSome
        rw [u2]
        exact uc (by rw [eb, ea]; exact hb)

/-! ### Loops over the interfaces -/

def tfds (t : List Slot) : List Nat := t.flatMap Slot.fds
def tctxs (t : List Slot) : List Nat := t.flatMap Slot.ctxs

/-- What a loop makes of the table. -/
inductive Img (Q : Slot → Option Slot → Prop) : List Slot → List Slot → Prop
  | nil : Img Q [] []
  | cons {x : Slot} {y : Option Slot} {t u : List Slot} (h : Q x y) (n : Img Q t u) : Img Q (x :: t) (y.toList ++ u)

theorem fds_len (x : Slot) : x.fds.length ≤ 2 := by
  unfold Slot.fds
  cases x.sd <;> cases x.sd6 <;> simp

theorem ofds_len (o : Option Slot) : (ofds o).length ≤ 2 := by
  cases o with
  | none => simp [ofds]
  | some x => simpa [ofds] using fds_len x

theorem tfds_len (t : List Slot) : (tfds t).length ≤ 2 * t.length := by
  induction t with
  | nil => simp [tfds]
  | cons x t ih =>
    have := fds_len x
    have e : tfds (x :: t) = x.fds ++ tfds t := rfl
    rw [e, List.length_append, List.length_cons]
    omega

theorem spec_for {f : Slot → M (Option Slot)} {I : Slot → Prop} {Q : Slot → Option Slot → Prop}
    (hf : ∀ x s F C, I x → Own s (x.fds ++ F) (x.ctxs ++ C) → (p.T ∨ F.length + 2 ≤ p.N) →
      Spec L X (f x) s fun y s' => Own s' (ofds y ++ F) (octxs y ++ C) ∧ Q x y) :
    ∀ (t : List Slot) (s : Sys) (F C : List Nat), (∀ x ∈ t, I x) → Own s (tfds t ++ F) (tctxs t ++ C) →
      (p.T ∨ F.length + 2 * t.length ≤ p.N) →
      Spec L X (forIfaces f t) s fun u s' => Own s' (tfds u ++ F) (tctxs u ++ C) ∧ Img Q t u
  | [], s, F, C, _, h, _ => ⟨h, .nil⟩
  | x :: t, s, F, C, hi, h, hn => by
    unfold forIfaces
    have h : Own s (x.fds ++ (tfds t ++ F)) (x.ctxs ++ (tctxs t ++ C)) := by
      simpa [tfds, tctxs] using h
    refine (hf x s _ _ (hi x (.head _)) h (hn.imp id fun hn => ?_)).bind ?_
    · have := tfds_len t
      rw [List.length_append]
      rw [List.length_cons] at hn
      omega
    · rintro y s1 ⟨h1, r1⟩
      refine (spec_for hf t s1 (ofds y ++ F) (octxs y ++ C) (fun x m => hi x (.tail _ m)) (h1.perm ?_ ?_)
        (hn.imp id fun hn => ?_)).bind ?_
      · exact List.perm_append_comm_assoc _ _ _
      · exact List.perm_append_comm_assoc _ _ _
      · have := ofds_len y
        rw [List.length_append]
        rw [List.length_cons] at hn
        omega
      · rintro u s2 ⟨h2, r2⟩
        refine ⟨h2.perm ?_ ?_, .cons r1 r2⟩
        · have e : tfds (y.toList ++ u) = ofds y ++ tfds u := by simp [tfds, ofds]
          rw [e, List.append_assoc]
          exact List.perm_append_comm_assoc _ _ _
        · have e : tctxs (y.toList ++ u) = octxs y ++ tctxs u := by simp [tctxs, octxs]
          rw [e, List.append_assoc]
          exact List.perm_append_comm_assoc _ _ _

theorem Img.mem {Q : Slot → Option Slot → Prop} {t u : List Slot} (n : Img Q t u) {y : Slot} (hy : y ∈ u) :
    ∃ x ∈ t, Q x (some y) := by
  induction n with
  | nil => cases hy
  | @cons x y' t u h _ ih =>
    rcases List.mem_append.mp hy with m | m
    · cases y' with
      | none => cases m
      | some z =>
        cases List.mem_singleton.mp m
        exact ⟨x, .head _, h⟩
    · obtain ⟨x', m', h'⟩ := ih m
      exact ⟨x', .tail _ m', h'⟩

theorem Img.imp {Q Q' : Slot → Option Slot → Prop} (hq : ∀ x y, Q x y → Q' x y) {t u : List Slot} (n : Img Q t u) :
    Img Q' t u := by
  induction n with
  | nil => exact .nil
  | cons h _ ih => exact .cons (hq _ _ h) ih

theorem Img.back {Q : Slot → Option Slot → Prop} {t u : List Slot} (n : Img Q t u) {x : Slot} (hx : x ∈ t) :
    ∃ y, Q x y ∧ ∀ z ∈ y, z ∈ u := by
  induction n with
  | nil => cases hx
  | @cons x' y t u h _ ih =>
    rcases List.mem_cons.mp hx with rfl | m
    · exact ⟨y, h, fun z hz => List.mem_append_left _ (by simpa using hz)⟩
    · obtain ⟨y', q, hm⟩ := ih m
      exact ⟨y', q, fun z hz => List.mem_append_right _ (hm z hz)⟩

/-! ### Scans -/

/-- The sockets and contexts of an interface, with its name. -/
def socks (x : Slot) : Bytes × Option Nat × Option Nat × Option Nat × Option Nat := (x.i.name, x.sd, x.sd6, x.mdns, x.mdns6)

def Slot.bare (x : Slot) : Prop := x.sd = none ∧ x.sd6 = none ∧ x.mdns = none ∧ x.mdns6 = none

theorem modify_socks (f : Iface → Iface) (hf : ∀ i, (f i).name = i.name) (n : Bytes) (t : List Slot) :
    (modify f n t).map socks = t.map socks := by
  induction t with
  | nil => rfl
  | cons x t ih =>
    unfold modify
    split
    · simp [socks, hf]
    · simp [ih]

theorem modify_base (f : Iface → Iface) (n : Bytes) (t : List Slot) :
    (modify f n t).map (·.i) = Iface.modify f n (t.map (·.i)) := by
  induction t with
  | nil => rfl
  | cons x t ih =>
    unfold modify
    rw [List.map_cons, Iface.modify]
    split
    · rfl
    · rw [List.map_cons, ih]

theorem find_base (t : List Slot) (n : Bytes) :
    Iface.find (t.map (·.i)) n = (t.find? (·.i.name == n)).map (·.i) := by
  unfold Iface.find
  rw [List.find?_map]
  rfl

theorem visit_base (ifname : Option Bytes) (t : List Slot) (e : Ifa) :
    (visit ifname t e).map (·.i) = Iface.visit ifname (t.map (·.i)) e := by
  unfold visit Iface.visit
  rw [find_base]
  cases Iface.usable ifname e with
  | none => rfl
  | some a =>
    cases t.find? (·.i.name == e.name) with
    | none => simp
    | some x => exact modify_base _ _ _

theorem scan_base (ifname : Option Bytes) (l : Option (List Ifa)) (t : List Slot) :
    (scan ifname l t).map (·.i) = Iface.scan ifname l (t.map (·.i)) := by
  unfold scan Iface.scan
  cases l with
  | none => rfl
  | some l =>
    dsimp only
    have h : ∀ (l : List Ifa) (t : List Slot),
        (l.foldl (visit ifname) t).map (·.i) = l.foldl (Iface.visit ifname) (t.map (·.i)) := by
      intro l
      induction l with
      | nil => intro t; rfl
      | cons e l ih =>
        intro t
        rw [List.foldl_cons, List.foldl_cons, ih, visit_base]
    have := h l (t.map fun x => { x with i := Iface.mark1 x.i })
    simp only [List.map_map] at this ⊢
    rw [show ((fun x : Slot => x.i) ∘ fun x : Slot => { x with i := Iface.sweep1 x.i }) = Iface.sweep1 ∘ (fun x : Slot => x.i) from rfl,
      ← List.map_map, this]
    rfl

/-- A scan keeps the sockets and contexts; new interfaces have none. -/
theorem scan_socks (ifname : Option Bytes) (l : Option (List Ifa)) (t : List Slot) :
    ∃ t1 new, scan ifname l t = t1 ++ new ∧ t1.map socks = t.map socks ∧ ∀ y ∈ new, y.bare := by
  unfold scan
  cases l with
  | none => exact ⟨t, [], by simp, rfl, by simp⟩
  | some l =>
    dsimp only
    have h : ∀ (l : List Ifa) (u t1 new : List Slot), u = t1 ++ new → t1.map socks = t.map socks → (∀ y ∈ new, y.bare) →
        ∃ t1 new, l.foldl (visit ifname) u = t1 ++ new ∧ t1.map socks = t.map socks ∧ ∀ y ∈ new, y.bare := by
      intro l
      induction l with
      | nil => intro u t1 new e h1 h2; exact ⟨t1, new, e, h1, h2⟩
      | cons a l ih =>
        intro u t1 new e h1 h2
        rw [List.foldl_cons]
        unfold visit
        split
        · exact ih _ _ _ e h1 h2
        · split
          · refine ih _ t1 (new ++ [_]) (by rw [e, List.append_assoc]) h1 ?_
            intro y hy
            rcases List.mem_append.mp hy with m | m
            · exact h2 y m
            · cases List.mem_singleton.mp m
              exact ⟨rfl, rfl, rfl, rfl⟩
          · rename_i a' _ _ _ _
            have hk : ∀ i : Iface, (Iface.take { i with unused := false } a').name = i.name := fun i => Iface.take_name _ _
            have hm := modify_socks _ hk a.name u
            generalize modify (fun i : Iface => Iface.take { i with unused := false } a') a.name u = v at hm
            have hlen : t1.length ≤ v.length := by
              have := congrArg List.length hm
              rw [List.length_map, List.length_map, e, List.length_append] at this
              omega
            refine ih v (v.take t1.length) (v.drop t1.length) (List.take_append_drop _ _).symm ?_ ?_
            · rw [← h1, List.map_take, hm, e, List.map_append, List.take_left' (by simp)]
            · intro y hy
              have : socks y ∈ (v.drop t1.length).map socks := List.mem_map_of_mem hy
              rw [List.map_drop, hm, e, List.map_append, List.drop_left' (by simp)] at this
              obtain ⟨z, mz, ez⟩ := List.mem_map.mp this
              have := h2 z mz
              unfold socks at ez
              simp only [Prod.mk.injEq] at ez
              unfold Slot.bare at *
              rw [← ez.2.1, ← ez.2.2.1, ← ez.2.2.2.1, ← ez.2.2.2.2]
              exact this
    obtain ⟨t1, new, e, h1, h2⟩ := h l (t.map fun x => { x with i := Iface.mark1 x.i }) _ [] (List.append_nil _).symm
      (by rw [List.map_map]; rfl) (by simp)
    have hw : ∀ u : List Slot, (u.map fun x : Slot => { x with i := Iface.sweep1 x.i }).map socks = u.map socks := by
      intro u
      rw [List.map_map]
      refine List.map_congr_left fun x _ => ?_
      simp [socks, Iface.sweep1_name]
    refine ⟨t1.map fun x => { x with i := Iface.sweep1 x.i }, new.map fun x => { x with i := Iface.sweep1 x.i }, ?_, ?_, ?_⟩
    · rw [e, List.map_append]
    · rw [hw, h1]
    · intro y hy
      obtain ⟨z, mz, rfl⟩ := List.mem_map.mp hy
      exact h2 z mz

/-! ### The table between two pieces of work -/

/-- All names a scan may find. -/
def Within (ifname : Option Bytes) (B : Bytes → Prop) (l : Option (List Ifa)) : Prop :=
  ∀ l', l = some l' → ∀ n a, Iface.Listed ifname l' n a → B n

/-- The number of names is small enough. -/
def Par.Few (p : Par) (B : Bytes → Prop) : Prop :=
  p.T ∨ ∀ ns : List Bytes, ns.Nodup → (∀ n ∈ ns, B n) → 1 + 2 * ns.length ≤ p.N

structure Tab (p : Par) (B : Bytes → Prop) (t : List Slot) : Prop where
  dist : Iface.Distinct (t.map (·.i))
  settled : ∀ x ∈ t, Iface.Settled x.i
  good : ∀ x ∈ t, Good p x
  ctx : ∀ x ∈ t, x.mdns.isSome
  sock : ∀ x ∈ t, x.sd.isSome
  names : ∀ x ∈ t, B x.i.name

variable {B : Bytes → Prop} {ifname : Option Bytes}

theorem Tab.len {t : List Slot} (h : Tab p B t) (hb : p.Few B) : p.T ∨ 1 + 2 * t.length ≤ p.N := by
  refine hb.imp id fun hb => ?_
  have := hb (t.map (·.i.name)) (by simpa [Iface.Distinct, Function.comp_def] using h.dist) (by
    intro n hn
    obtain ⟨x, m, rfl⟩ := List.mem_map.mp hn
    exact h.names x m)
  simpa using this

theorem tfds_socks (t : List Slot) : tfds t = (t.map socks).flatMap fun k => k.2.1.toList ++ k.2.2.1.toList := by
  unfold tfds
  rw [List.flatMap_map]
  rfl

theorem tctxs_socks (t : List Slot) : tctxs t = (t.map socks).flatMap fun k => k.2.2.2.1.toList ++ k.2.2.2.2.toList := by
  unfold tctxs
  rw [List.flatMap_map]
  rfl

theorem bare_held {u : List Slot} (h : ∀ y ∈ u, y.bare) : tfds u = [] ∧ tctxs u = [] := by
  constructor
  · refine List.flatMap_eq_nil_iff.mpr fun y hy => ?_
    unfold Slot.fds
    rw [(h y hy).1, (h y hy).2.1]
    rfl
  · refine List.flatMap_eq_nil_iff.mpr fun y hy => ?_
    unfold Slot.ctxs
    rw [(h y hy).2.2.1, (h y hy).2.2.2]
    rfl

theorem scan_held (l : Option (List Ifa)) (t : List Slot) :
    tfds (scan ifname l t) = tfds t ∧ tctxs (scan ifname l t) = tctxs t := by
  obtain ⟨t1, new, e, h1, h2⟩ := scan_socks ifname l t
  have := bare_held h2
  constructor
  · rw [e, tfds_socks t, ← h1, ← tfds_socks]
    unfold tfds at *
    rw [List.flatMap_append, this.1, List.append_nil]
  · rw [e, tctxs_socks t, ← h1, ← tctxs_socks]
    unfold tctxs at *
    rw [List.flatMap_append, this.2, List.append_nil]

theorem Good.of_socks {x y : Slot} (h : socks x = socks y) (g : Good p y) : Good p x := by
  obtain ⟨i, sd, sd6, mdns, mdns6⟩ := x
  obtain ⟨i', sd', sd6', mdns', mdns6'⟩ := y
  simp only [socks, Prod.mk.injEq] at h
  obtain ⟨-, rfl, rfl, rfl, rfl⟩ := h
  exact ⟨g.v4, g.v6, g.small⟩

/-- What a scan finds is known, or listed. -/
theorem scan_known {l : Option (List Ifa)} {t : List Iface} {n : Bytes} (h : n ∈ (Iface.scan ifname l t).map (·.name)) :
    n ∈ t.map (·.name) ∨ ∃ l' a, l = some l' ∧ Iface.Listed ifname l' n a := by
  cases l with
  | none => exact .inl h
  | some l =>
    refine Classical.byContradiction fun hn => ?_
    have hl : ∀ a, ¬ Iface.Listed ifname l n a := fun a ha => hn (.inr ⟨l, a, rfl, ha⟩)
    have ht : Iface.find t n = none := (Iface.find_none_iff _ _).mpr fun m => hn (.inl m)
    have := Iface.scan_unlisted ifname l t n hl
    rw [ht] at this
    exact (Iface.find_none_iff _ _).mp this h

/-- An interface found by a scan is set up already, or flagged. -/
theorem scan_ready {l : Option (List Ifa)} (hl : Iface.AllProper l) {t : List Slot} (h : Tab p B t) {x : Slot}
    (hx : x ∈ scan ifname l t) :
    (∃ y ∈ t, socks x = socks y) ∨ (x.bare ∧ x.i.changed = true) := by
  obtain ⟨t1, new, e, h1, h2⟩ := scan_socks ifname l t
  rw [e] at hx
  rcases List.mem_append.mp hx with m | m
  · have : socks x ∈ t.map socks := h1 ▸ List.mem_map_of_mem m
    obtain ⟨y, my, ey⟩ := List.mem_map.mp this
    exact .inl ⟨y, my, ey.symm⟩
  · refine .inr ⟨h2 x m, ?_⟩
    -- the name is new
    have hd : Iface.Distinct ((t1 ++ new).map (·.i)) := by
      rw [← e, scan_base]
      exact Iface.scan_distinct _ _ _ h.dist
    have hnew : x.i.name ∉ (t.map (·.i)).map (·.name) := by
      intro hm
      have h3 : (t.map (·.i)).map (·.name) = (t1.map (·.i)).map (·.name) := by
        have := congrArg (List.map Prod.fst) h1
        rw [List.map_map, List.map_map] at this
        rw [List.map_map, List.map_map]
        exact this.symm
      rw [h3] at hm
      unfold Iface.Distinct at hd
      rw [List.map_append, List.map_append, List.nodup_append] at hd
      exact hd.2.2 _ hm _ (List.mem_map_of_mem (List.mem_map_of_mem m)) rfl
    have hmem : x.i ∈ Iface.scan ifname l (t.map (·.i)) := by
      rw [← scan_base, e]
      exact List.mem_map_of_mem (List.mem_append_right _ m)
    rcases scan_known (List.mem_map_of_mem hmem) with hk | ⟨l', a, rfl, ha⟩
    · exact absurd hk hnew
    · obtain ⟨i, hf, hu, hc, _⟩ := Iface.scan_flag ifname l' (t.map (·.i)) x.i.name a ha (Iface.listed_proper hl ha)
      have hi := (Iface.scan_distinct ifname (some l') _ h.dist).find hmem
      rw [hi] at hf
      cases hf
      rw [(Iface.find_none_iff _ _).mpr hnew] at hc
      cases hch : x.i.changed with
      | true => rfl
      | false =>
        have hin : x.i ∈ Iface.sysInit ifname (some l') (t.map (·.i)) := by
          refine List.mem_filterMap.mpr ⟨x.i, hmem, ?_⟩
          unfold Iface.setup1
          rw [hch]
          rfl
        have := (Iface.settled_scan ifname (some l') _ h.dist (by
          intro i hi
          obtain ⟨y, my, rfl⟩ := List.mem_map.mp hi
          exact h.settled y my) hl _ hin).2.1 hu
        rw [hc] at this
        cases this

theorem Img.base {Q : Slot → Option Slot → Prop} {f : Iface → Option Iface} (hQ : ∀ x y, Q x y → y.map (·.i) = f x.i)
    {t u : List Slot} (n : Img Q t u) : u.map (·.i) = (t.map (·.i)).filterMap f := by
  induction n with
  | nil => rfl
  | @cons x y t u h _ ih =>
    rw [List.map_append, ih, List.map_cons, List.filterMap_cons, ← hQ x y h]
    cases y <;> rfl

theorem Img.names {Q : Slot → Option Slot → Prop} (hQ : ∀ x y, Q x (some y) → y.i.name = x.i.name)
    {t u : List Slot} (n : Img Q t u) : ((u.map (·.i)).map (·.name)).Sublist ((t.map (·.i)).map (·.name)) := by
  induction n with
  | nil => exact .slnil
  | @cons x y t u h _ ih =>
    cases y with
    | none => exact ih.cons _
    | some y =>
      have := hQ x y h
      simp only [Option.toList_some, List.cons_append, List.nil_append, List.map_cons, this]
      exact ih.cons_cons _

theorem spec_sysInit {e : Env} (he : p.Ok X e) (hb : p.Few B) {l : Option (List Ifa)} (hl : Iface.AllProper l)
    (hw : Within ifname B l) {t : List Slot} (ht : Tab p B t) {s : Sys} {F C : List Nat} (hF : F.length ≤ 1)
    (h : Own s (tfds t ++ F) (tctxs t ++ C)) :
    Spec L X (sysInit ifname e l t) s fun u s' => Own s' (tfds u ++ F) (tctxs u ++ C) ∧ Tab p B u ∧
      u.map (·.i) = Iface.sysInit ifname l (t.map (·.i)) ∧
      ∀ z ∈ u, z.i.name ∉ t.map (·.i.name) → e.sock6 z.i.name = .bound → z.sd6.isSome := by
  unfold sysInit
  have hd := Iface.scan_distinct ifname l _ ht.dist
  rw [← scan_base] at hd
  have hnm : ∀ x ∈ scan ifname l t, B x.i.name := by
    intro x hx
    have : x.i.name ∈ (Iface.scan ifname l (t.map (·.i))).map (·.name) := by
      rw [← scan_base]
      exact List.mem_map_of_mem (List.mem_map_of_mem hx)
    rcases scan_known this with hk | ⟨l', a, rfl, ha⟩
    · rw [List.map_map] at hk
      obtain ⟨y, my, ey⟩ := List.mem_map.mp hk
      have := ht.names y my
      rw [← ey]
      exact this
    · exact hw l' rfl _ a ha
  have hlen : p.T ∨ F.length + 2 * (scan ifname l t).length ≤ p.N := by
    refine hb.imp id fun hb => ?_
    have := hb ((scan ifname l t).map (·.i.name)) (by simpa [Iface.Distinct, Function.comp_def] using hd) (by
      intro n hn
      obtain ⟨x, m, rfl⟩ := List.mem_map.mp hn
      exact hnm x m)
    rw [List.length_map] at this
    omega
  refine (spec_for (I := fun x => Good p x ∧ ((∃ y ∈ t, socks x = socks y) ∨ (x.bare ∧ x.i.changed = true)))
    (Q := fun x y => y.map (·.i) = Iface.setup1 x.i ∧
      ∀ z ∈ y, Good p z ∧ z.mdns.isSome ∧ z.sd.isSome ∧ (z.i.name ∉ t.map (·.i.name) → e.sock6 z.i.name = .bound → z.sd6.isSome))
    ?_ _ s F C ?_ ?_ hlen).mono ?_
  · rintro x s F C ⟨g, hr⟩ h hn
    refine (spec_setupIface he g h hn).mono ?_
    rintro y s' ⟨h1, h2, h3⟩
    refine ⟨h1, h2, fun z hz => ?_⟩
    obtain ⟨h4, h5, h6⟩ := h3 z hz
    have hzn : z.i.name = x.i.name := by
      cases hz
      exact Iface.setup1_name h2.symm
    refine ⟨h4, ?_⟩
    cases hc : x.i.changed with
    | true =>
      obtain ⟨a, b, c⟩ := h5 hc
      exact ⟨a, b, fun _ hs => c (hzn ▸ hs)⟩
    | false =>
      have e0 := h6 hc
      subst e0
      rcases hr with ⟨y, my, ey⟩ | hr
      · have := ht.ctx y my
        have h' := ht.sock y my
        simp only [socks, Prod.mk.injEq] at ey
        rw [← ey.2.2.2.1] at this
        rw [← ey.2.1] at h'
        exact ⟨this, h', fun hn => absurd (ey.1 ▸ List.mem_map_of_mem my) hn⟩
      · rw [hr.2] at hc
        cases hc
  · intro x hx
    have hr := scan_ready hl ht hx
    refine ⟨?_, hr⟩
    rcases hr with ⟨y, my, ey⟩ | hr
    · exact (ht.good y my).of_socks ey
    · obtain ⟨i, sd, sd6, mdns, mdns6⟩ := x
      obtain ⟨⟨rfl, rfl, rfl, rfl⟩, -⟩ := hr
      exact ⟨fun h => (by cases h), fun h => (by cases h), fun fd m => (by cases m)⟩
  · rw [(scan_held l t).1, (scan_held l t).2]
    exact h
  · rintro u s' ⟨h1, h2⟩
    have hbase : u.map (·.i) = Iface.sysInit ifname l (t.map (·.i)) := by
      rw [h2.base (fun x y h => h.1), scan_base]
      rfl
    refine ⟨h1, ⟨?_, ?_, ?_, ?_, ?_, ?_⟩, hbase, ?_⟩
    · rw [hbase]
      exact Iface.sysInit_distinct _ _ _ ht.dist
    · intro x hx
      refine Iface.settled_scan ifname l (t.map (·.i)) ht.dist ?_ hl x.i (hbase ▸ List.mem_map_of_mem hx)
      intro i hi
      obtain ⟨y, my, rfl⟩ := List.mem_map.mp hi
      exact ht.settled y my
    · intro z hz
      obtain ⟨x, mx, q⟩ := h2.mem hz
      exact (q.2 z rfl).1
    · intro z hz
      obtain ⟨x, mx, q⟩ := h2.mem hz
      exact (q.2 z rfl).2.1
    · intro z hz
      obtain ⟨x, mx, q⟩ := h2.mem hz
      exact (q.2 z rfl).2.2.1
    · intro z hz
      obtain ⟨x, mx, q⟩ := h2.mem hz
      rw [Iface.setup1_name q.1.symm]
      exact hnm x mx
    · intro z hz
      obtain ⟨x, mx, q⟩ := h2.mem hz
      exact (q.2 z rfl).2.2.2

/-! ### The main loop -/

theorem spec_fdSet {s : Sys} {fd : Nat} {F C : List Nat} (h : Own s F C) (hm : fd ∈ F) (hp : p.P fd) :
    Spec p.L X (fdSet fd) s fun _ s' => s = s' := by
  unfold Spec fdSet
  have : fd ∈ s.fds := h.fds.mem_iff.mpr hm
  rw [if_neg (fun h => h this)]
  split <;> rename_i hc
  · split at hc <;> cases hc
    rfl
  · split at hc <;> cases hc
  · split at hc <;> cases hc
  · split at hc
    · cases hc
    · exact ⟨fd, hp, by assumption⟩

theorem spec_same {f : Slot → M (Option Slot)} {s : Sys} :
    ∀ t : List Slot, (∀ x ∈ t, Spec L X (f x) s fun _ s' => s = s') → Spec L X (forIfaces f t) s fun _ s' => s = s'
  | [], _ => rfl
  | x :: t, h => by
    unfold forIfaces
    refine (h x (.head _)).bind ?_
    rintro _ _ rfl
    refine (spec_same t fun y m => h y (.tail _ m)).bind ?_
    rintro _ _ rfl
    rfl

theorem spec_waitFor {nl : Option Nat} {t : List Slot} (ht : Tab p B t) (hnl : ∀ fd ∈ nl, p.P fd) {s : Sys}
    {C : List Nat} (h : Own s (tfds t ++ nl.toList) C) : Spec p.L X (waitFor nl t) s fun _ s' => s = s' := by
  unfold waitFor
  have h0 : Spec p.L X (whenSome nl fdSet) s fun _ s' => s = s' := by
    cases nl with
    | none => exact Spec.pure rfl
    | some fd => exact (spec_fdSet h (by simp) (hnl fd rfl) : Spec p.L X (fdSet fd) s _)
  refine h0.bind ?_
  rintro _ _ rfl
  refine (spec_same t ?_).bind ?_
  · intro x hx
    split
    · exact Spec.pure rfl
    · have hm : ∀ fd ∈ x.fds, Spec p.L X (fdSet fd) s fun _ s' => s = s' := fun fd m =>
        spec_fdSet h (List.mem_append_left _ (List.mem_flatMap.mpr ⟨x, hx, m⟩)) ((ht.good x hx).small fd m)
      have h1 : ∀ o : Option Nat, (∀ fd ∈ o, fd ∈ x.fds) → Spec p.L X (whenSome o fdSet) s fun _ s' => s = s' := by
        intro o ho
        cases o with
        | none => exact Spec.pure rfl
        | some fd => exact hm fd (ho fd rfl)
      refine (h1 x.sd ?_).bind ?_
      · intro fd m
        exact List.mem_append_left _ (by simpa using m)
      · rintro _ _ rfl
        refine (h1 x.sd6 ?_).bind ?_
        · intro fd m
          exact List.mem_append_right _ (by simpa using m)
        · rintro _ _ rfl
          exact Spec.pure rfl
  · rintro _ _ rfl
    exact Spec.pure rfl

/-- What a loop that keeps names and sockets makes of the table. -/
theorem Tab.img {Q : Slot → Option Slot → Prop} (hQ : ∀ x y, Q x (some y) → y.i.name = x.i.name ∧
      (Iface.Settled x.i → Iface.Settled y.i) ∧ Good p y ∧ y.mdns.isSome ∧ y.sd.isSome)
    {t u : List Slot} (ht : Tab p B t) (n : Img Q t u) : Tab p B u := by
  refine ⟨?_, ?_, ?_, ?_, ?_, ?_⟩
  · exact List.Sublist.nodup (n.names fun x y h => (hQ x y h).1) ht.dist
  · intro y hy
    obtain ⟨x, m, q⟩ := n.mem hy
    exact (hQ x y q).2.1 (ht.settled x m)
  · intro y hy
    obtain ⟨x, m, q⟩ := n.mem hy
    exact (hQ x y q).2.2.1
  · intro y hy
    obtain ⟨x, m, q⟩ := n.mem hy
    exact (hQ x y q).2.2.2.1
  · intro y hy
    obtain ⟨x, m, q⟩ := n.mem hy
    exact (hQ x y q).2.2.2.2
  · intro y hy
    obtain ⟨x, m, q⟩ := n.mem hy
    rw [(hQ x y q).1]
    exact ht.names x m

theorem spec_reread {t : List Slot} (ht : Tab p B t) (hb : p.Few B) {s : Sys} {F C : List Nat} (hF : F.length ≤ 1)
    (h : Own s (tfds t ++ F) (tctxs t ++ C)) :
    Spec L X (forIfaces reread t) s fun u s' => Own s' (tfds u ++ F) (tctxs u ++ C) ∧ Tab p B u := by
  refine (spec_for (I := fun x => Good p x ∧ x.mdns.isSome ∧ x.sd.isSome)
    (Q := fun x y => y = some { x with i := { x.i with conf := some (x.i.in4, x.i.in6) } } ∧ Good p x ∧ x.mdns.isSome ∧ x.sd.isSome)
    ?_ t s F C (fun x m => ⟨ht.good x m, ht.ctx x m, ht.sock x m⟩) h ((ht.len hb).imp id fun h => by omega)).mono ?_
  · rintro x s F C ⟨g, m, d⟩ h hn
    unfold reread
    have h1 : Spec L X (useCtx x.mdns) s fun _ s' => s = s' := by
      unfold Slot.ctxs at h
      cases hc : x.mdns with
      | none => rw [hc] at m; cases m
      | some c => exact spec_useCtx h (by simp [hc])
    refine h1.bind ?_
    rintro _ _ rfl
    have h2 : Spec L X (do let x ← confInit x; Pure.pure (some x) : M (Option Slot)) s fun y s' =>
        Own s' (ofds y ++ F) (octxs y ++ C) ∧ y = some { x with i := { x.i with conf := some (x.i.in4, x.i.in6) } } ∧
          Good p x ∧ x.mdns.isSome ∧ x.sd.isSome := by
      refine (spec_confInit h m).bind ?_
      rintro y _ ⟨rfl, rfl⟩
      exact ⟨by simpa [ofds, octxs, Slot.fds, Slot.ctxs] using h, rfl, g, m, d⟩
    dsimp only
    split
    · rename_i h6
      have h3 : Spec L X (useCtx x.mdns6) s fun _ s' => s = s' := by
        unfold Slot.ctxs at h
        cases hc : x.mdns6 with
        | none => rw [hc] at h6; cases h6
        | some c => exact spec_useCtx h (by simp [hc])
      refine h3.bind ?_
      rintro _ _ rfl
      exact h2
    · exact h2
  · rintro u s' ⟨h1, h2⟩
    refine ⟨h1, ht.img ?_ h2⟩
    rintro x y ⟨e, g, m, d⟩
    cases e
    exact ⟨rfl, fun hs => ⟨hs.1, fun _ => rfl, hs.2.2⟩, ⟨g.v4, g.v6, g.small⟩, m, d⟩

/-- What the work for an interface makes of it. -/
def Served (ok4 ok6 : Bytes → Bool) (x : Slot) (y : Option Slot) : Prop :=
  (x.i.unused = true → y = some x) ∧ (x.i.unused = false → ok4 x.i.name = false → y = none) ∧
    (x.i.unused = false → ok4 x.i.name = true → ∃ z, y = some z ∧ z.i = x.i ∧ z.sd = x.sd ∧ z.mdns = x.mdns ∧
      z.mdns6 = x.mdns6 ∧ z.sd6 = if x.mdns6.isSome ∧ ok6 x.i.name = false then none else x.sd6)

theorem spec_serve {ok4 ok6 : Bytes → Bool} {t : List Slot} (ht : Tab p B t) (hb : p.Few B) {s : Sys} {F C : List Nat}
    (hF : F.length ≤ 1) (h : Own s (tfds t ++ F) (tctxs t ++ C)) :
    Spec p.L X (forIfaces (serve ok4 ok6) t) s fun u s' => Own s' (tfds u ++ F) (tctxs u ++ C) ∧ Tab p B u ∧
      Img (Served ok4 ok6) t u := by
  refine (spec_for (I := fun x => Good p x ∧ x.mdns.isSome ∧ x.sd.isSome)
    (Q := fun x y => (∀ z ∈ y, z.i = x.i ∧ Good p z ∧ z.mdns.isSome ∧ z.sd.isSome) ∧ Served ok4 ok6 x y)
    ?_ t s F C (fun x m => ⟨ht.good x m, ht.ctx x m, ht.sock x m⟩) h ((ht.len hb).imp id fun h => by omega)).mono ?_
  · rintro x s F C ⟨g, m, d⟩ h hn
    have same : Own s (ofds (some x) ++ F) (octxs (some x) ++ C) ∧
        ∀ z ∈ some x, z.i = x.i ∧ Good p z ∧ z.mdns.isSome ∧ z.sd.isSome := by
      refine ⟨by simpa [ofds, octxs] using h, ?_⟩
      intro z hz
      cases hz
      exact ⟨rfl, g, m, d⟩
    unfold serve
    split
    · rename_i hu
      exact Spec.pure ⟨same.1, same.2, fun _ => rfl, fun h => (by rw [hu] at h; cases h), fun h => (by rw [hu] at h; cases h)⟩
    · rename_i hu
      have hu : x.i.unused = false := by simpa using hu
      split
      · rename_i hsd
        rw [hsd] at d
        cases d
      · rename_i fd hfd
        have hm : fd ∈ x.fds := by unfold Slot.fds; rw [hfd]; simp
        refine (spec_fdSet h (List.mem_append_left _ hm) (g.small fd hm)).bind ?_
        rintro _ _ rfl
        have h1 : Spec p.L X (step x.mdns fd) s fun _ s' => s = s' := by
          cases hc : x.mdns with
          | none => rw [hc] at m; cases m
          | some c =>
            exact spec_step h (List.mem_append_left _ hm) (List.mem_append_left _ (by unfold Slot.ctxs; rw [hc]; simp))
        refine h1.bind ?_
        rintro _ _ rfl
        split
        · rename_i h4
          have h4 : ok4 x.i.name = false := by simpa using h4
          refine (spec_freeIface g h).bind ?_
          intro _ s1 h1
          exact Spec.pure ⟨h1, fun z hz => (by cases hz), fun h => (by rw [hu] at h; cases h), fun _ _ => rfl,
            fun _ h => (by rw [h4] at h; cases h)⟩
        · rename_i h4
          have h4 : ok4 x.i.name = true := by simpa using h4
          have stays : x.sd6 = (if x.mdns6.isSome ∧ ok6 x.i.name = false then none else x.sd6) →
              Served ok4 ok6 x (some x) := fun hk =>
            ⟨fun _ => rfl, fun _ h => (by rw [h4] at h; cases h), fun _ _ => ⟨x, rfl, rfl, rfl, rfl, rfl, hk⟩⟩
          split
          · split
            · rename_i hn
              exact Spec.pure ⟨same.1, same.2, stays (by rw [hn]; split <;> rfl)⟩
            · rename_i h6 _ fd6 hfd6
              have hm6 : fd6 ∈ x.fds := by unfold Slot.fds; rw [hfd6]; simp
              refine (spec_fdSet h (List.mem_append_left _ hm6) (g.small fd6 hm6)).bind ?_
              rintro _ _ rfl
              have h2 : Spec p.L X (step x.mdns6 fd6) s fun _ s' => s = s' := by
                cases hc : x.mdns6 with
                | none => rw [hc] at h6; cases h6
                | some c =>
                  exact spec_step h (List.mem_append_left _ hm6)
                    (List.mem_append_left _ (by unfold Slot.ctxs; rw [hc]; simp))
              refine h2.bind ?_
              rintro _ _ rfl
              split
              · rename_i ho
                have ho : ok6 x.i.name = false := by simpa using ho
                obtain ⟨i, sd, sd6, mdns, mdns6⟩ := x
                cases hfd6
                have h : Own s (fd6 :: (sd.toList ++ F)) (Slot.ctxs ⟨i, sd, some fd6, mdns, mdns6⟩ ++ C) := by
                  refine h.perm ?_ (List.Perm.refl _)
                  unfold Slot.fds
                  simp
                refine (spec_close h).bind ?_
                intro _ s1 h1
                refine Spec.pure ⟨by simpa [ofds, octxs, Slot.fds, Slot.ctxs] using h1, ?_,
                  fun h => (by rw [hu] at h; cases h), fun _ h => (by rw [h4] at h; cases h),
                  fun _ _ => ⟨_, rfl, rfl, rfl, rfl, rfl, (if_pos ⟨h6, ho⟩).symm⟩⟩
                intro z hz
                cases hz
                refine ⟨rfl, ⟨fun _ => m, fun h => (by cases h), fun f hf => g.small f ?_⟩, m, d⟩
                unfold Slot.fds at hf ⊢
                simp at hf
                simp [hf]
              · rename_i ho
                have ho : ok6 x.i.name = true := by simpa using ho
                exact Spec.pure ⟨same.1, same.2, stays (by simp [ho])⟩
          · rename_i h6
            exact Spec.pure ⟨same.1, same.2, stays (by simp [h6])⟩
  · rintro u s' ⟨h1, h2⟩
    refine ⟨h1, ht.img ?_ h2, h2.imp fun x y h => h.2⟩
    intro x y q
    obtain ⟨e, g, m, d⟩ := q.1 y rfl
    exact ⟨by rw [e], fun h => e ▸ h, g, m, d⟩

/-- What a round meets. -/
def EvOk (p : Par) (X : Prop) (ifname : Option Bytes) (B : Bytes → Prop) : Ev → Prop
  | .interrupted => True
  | .reload e l => p.Ok X e ∧ Iface.AllProper l ∧ Within ifname B l
  | .work sc _ _ => ∀ k ∈ sc, p.Ok X k.1 ∧ Iface.AllProper k.2 ∧ Within ifname B k.2

/-- The state between two rounds. -/
structure St (p : Par) (B : Bytes → Prop) (nl : Option Nat) (t : List Slot) (s : Sys) : Prop where
  own : Own s (tfds t ++ nl.toList) (tctxs t)
  tab : Tab p B t
  nl : ∀ fd ∈ nl, p.P fd

theorem nl_len (nl : Option Nat) : nl.toList.length ≤ 1 := by cases nl <;> simp

theorem spec_scans (hb : p.Few B) {nl : Option Nat} :
    ∀ (sc : List (Env × Option (List Ifa))) {t : List Slot} {s : Sys},
      (∀ k ∈ sc, p.Ok X k.1 ∧ Iface.AllProper k.2 ∧ Within ifname B k.2) → St p B nl t s →
      Spec L X (scans ifname sc t) s fun u s' => St p B nl u s'
  | [], _, _, _, h => h
  | (e, l) :: r, t, s, hk, h => by
    unfold scans
    obtain ⟨he, hl, hw⟩ := hk (e, l) (.head _)
    refine (spec_sysInit (C := []) he hb hl hw h.tab (nl_len nl) (by simpa using h.own)).bind ?_
    rintro u s1 ⟨h1, h2, -, -⟩
    exact spec_scans hb r (fun k m => hk k (.tail _ m)) ⟨by simpa using h1, h2, h.nl⟩

theorem spec_round (hb : p.Few B) {nl : Option Nat} {ev : Ev} (hev : EvOk p X ifname B ev) {t : List Slot} {s : Sys}
    (h : St p B nl t s) : Spec p.L X (round ifname nl ev t) s fun u s' => St p B nl u s' := by
  unfold round
  refine (spec_waitFor h.tab h.nl h.own).bind ?_
  rintro _ _ rfl
  cases ev with
  | interrupted => exact h
  | reload e l =>
    obtain ⟨he, hl, hw⟩ := hev
    refine (spec_sysInit (C := []) he hb hl hw h.tab (nl_len nl) (by simpa using h.own)).bind ?_
    rintro u s1 ⟨h1, h2, -, -⟩
    refine (spec_reread h2 hb (nl_len nl) h1).mono ?_
    rintro v s2 ⟨h3, h4⟩
    exact ⟨by simpa using h3, h4, h.nl⟩
  | work sc ok4 ok6 =>
    have h0 : Spec p.L X (whenSome nl useFd) s fun _ s' => s = s' := by
      cases nl with
      | none => exact Spec.pure rfl
      | some fd => exact (spec_useFd h.own (by simp) : Spec p.L X (useFd fd) s _)
    refine h0.bind ?_
    rintro _ _ rfl
    refine (spec_scans hb sc hev h).bind ?_
    intro u s1 h1
    refine (spec_serve (C := []) h1.tab hb (nl_len nl) (by simpa using h1.own)).mono ?_
    rintro v s2 ⟨h3, h4, -⟩
    exact ⟨by simpa using h3, h4, h.nl⟩

theorem spec_rounds (hb : p.Few B) {nl : Option Nat} :
    ∀ (evs : List Ev) {t : List Slot} {s : Sys}, (∀ ev ∈ evs, EvOk p X ifname B ev) → St p B nl t s →
      Spec p.L X (rounds ifname nl evs t) s fun u s' => St p B nl u s'
  | [], _, _, _, h => h
  | ev :: r, t, s, hk, h => by
    unfold rounds
    refine (spec_round hb (hk ev (.head _)) h).bind ?_
    intro u s1 h1
    exact spec_rounds hb r (fun k m => hk k (.tail _ m)) h1

theorem spec_start (hb : p.Few B) {e : Env} {l : Option (List Ifa)} (he : p.Ok X e) (hl : Iface.AllProper l)
    (hw : Within ifname B l) (k : Sock) :
    Spec p.L X (start ifname e l k) {} fun r s' => St p B r.1 r.2 s' := by
  unfold start
  have h0 : Own ({} : Sys) (tfds [] ++ []) (tctxs [] ++ []) :=
    ⟨.refl _, .nil, .refl _, .nil, fun c m => (by cases m)⟩
  have t0 : Tab p B [] := by
    refine ⟨?_, ?_, ?_, ?_, ?_, ?_⟩
    · exact List.nodup_nil
    all_goals simp
  refine (spec_sysInit he hb hl hw t0 (by simp) h0).bind ?_
  rintro t s1 ⟨h1, h2, -, -⟩
  have h1 : Own s1 (tfds t) (tctxs t) := by simpa using h1
  refine (spec_socket he h1 ?_).bind ?_
  · refine (h2.len hb).imp id fun hn => ?_
    have := tfds_len t
    omega
  · rintro nl s2 ⟨h3, h4, -⟩
    exact Spec.pure ⟨h3.perm List.perm_append_comm (.refl _), h2, fun fd m => h4 fd (by simpa using m)⟩

theorem spec_finish {nl : Option Nat} (hb : p.Few B) {t : List Slot} {s : Sys} (h : St p B nl t s) :
    Spec L X (finish nl t) s fun _ s' => s'.fds = [] ∧ s'.ctxs = [] := by
  unfold finish
  refine (spec_for (I := fun x => Good p x) (Q := fun _ y => y = none) ?_ t s nl.toList [] h.tab.good
    (by simpa using h.own) ((h.tab.len hb).imp id fun hn => by have := nl_len nl; omega)).bind ?_
  · intro x s F C g h hn
    refine (spec_freeIface g h).bind ?_
    intro _ s1 h1
    exact Spec.pure ⟨h1, rfl⟩
  · rintro u s1 ⟨h1, h2⟩
    have hu : u = [] := by
      refine List.eq_nil_iff_forall_not_mem.mpr fun y hy => ?_
      obtain ⟨x, -, q⟩ := h2.mem hy
      cases q
    subst hu
    have done : ∀ s : Sys, Own s [] [] → s.fds = [] ∧ s.ctxs = [] :=
      fun s h => ⟨h.fds.eq_nil, h.ctxs.eq_nil⟩
    cases nl with
    | none => exact Spec.pure (done _ h1)
    | some fd => exact Spec.mono (spec_close h1 : Spec L X (close fd) s1 _) fun _ s' h => done _ h

theorem spec_main (hb : p.Few B) {e : Env} {l : Option (List Ifa)} (he : p.Ok X e) (hl : Iface.AllProper l)
    (hw : Within ifname B l) (k : Sock) {evs : List Ev} (hk : ∀ ev ∈ evs, EvOk p X ifname B ev) :
    Spec p.L X (main ifname e l k evs) {} fun _ s' => s'.fds = [] ∧ s'.ctxs = [] := by
  unfold main
  refine (spec_start hb he hl hw k).bind ?_
  rintro ⟨nl, t⟩ s1 h1
  refine (spec_rounds hb evs hk h1).bind ?_
  intro u s2 h2
  exact spec_finish hb h2

/-! ### C70 -/

/-- The scans of a round: what the system does meanwhile, and what `getifaddrs` gives. -/
def Ev.calls : Ev → List (Env × Option (List Ifa))
  | .interrupted => []
  | .reload e l => [(e, l)]
  | .work sc _ _ => sc

/-- The daemon up to the end of some rounds. -/
def upTo (ifname : Option Bytes) (e : Env) (l : Option (List Ifa)) (k : Sock) (evs : List Ev) : M (Option Nat × List Slot) := do
  let (nl, t) ← start ifname e l k
  let t ← rounds ifname nl evs t
  pure (nl, t)

/-- Nothing is assumed about the numbers of descriptors. -/
def anyPar : Par := ⟨fun _ => True, True, 0⟩

/-- Any names. -/
def anyName : Bytes → Prop := fun _ => True

theorem any_few : anyPar.Few anyName := .inl trivial

theorem any_ok {X : Prop} {e : Env} (h : e.Fresh) (hx : X) : anyPar.Ok X e := ⟨h, fun _ _ => trivial, .inl hx⟩

theorem evOk_of {X : Prop} {ev : Ev} (h : ∀ c ∈ ev.calls, p.Ok X c.1 ∧ Iface.AllProper c.2 ∧ Within ifname B c.2) :
    EvOk p X ifname B ev := by
  cases ev with
  | interrupted => trivial
  | reload e l => exact h _ (.head _)
  | work sc ok4 ok6 => exact h

theorem spec_upTo (hb : p.Few B) {e : Env} {l : Option (List Ifa)} {k : Sock} {evs : List Ev}
    (h : ∀ c ∈ (e, l) :: evs.flatMap Ev.calls, p.Ok X c.1 ∧ Iface.AllProper c.2 ∧ Within ifname B c.2) :
    Spec p.L X (upTo ifname e l k evs) {} fun r s => St p B r.1 r.2 s := by
  obtain ⟨he, hl, hw⟩ := h _ (.head _)
  unfold upTo
  refine (spec_start hb he hl hw k).bind ?_
  rintro ⟨nl, t⟩ s1 h1
  refine (spec_rounds hb evs ?_ h1).bind ?_
  · intro ev m
    exact evOk_of fun c mc => h c (.tail _ (List.mem_flatMap.mpr ⟨ev, m, mc⟩))
  · intro u s2 h2
    exact h2

theorem any_upTo {e : Env} {l : Option (List Ifa)} {k : Sock} {evs : List Ev}
    (h : ∀ c ∈ (e, l) :: evs.flatMap Ev.calls, c.1.Fresh ∧ Iface.AllProper c.2) {nl : Option Nat} {t : List Slot} {s : Sys}
    (hr : upTo ifname e l k evs {} = .ok (nl, t) s) : St anyPar anyName nl t s := by
  have := spec_upTo (X := True) (ifname := ifname) (k := k) any_few
    (fun c m => ⟨any_ok (h c m).1 trivial, (h c m).2, fun _ _ _ _ _ => trivial⟩ :
      ∀ c ∈ (e, l) :: evs.flatMap Ev.calls, anyPar.Ok True c.1 ∧ Iface.AllProper c.2 ∧ Within ifname anyName c.2)
  unfold Spec at this
  rw [hr] at this
  exact this

/-- **C70.** The daemon never uses, frees or closes a context or a descriptor it does not have, and when it ends it has
given everything back.  Partial: addresses 0.0.0.0 and `::` are excluded. -/
theorem C70_released_partial (ifname : Option Bytes) (e : Env) (l : Option (List Ifa)) (k : Sock) (evs : List Ev)
    (h : ∀ c ∈ (e, l) :: evs.flatMap Ev.calls, c.1.Fresh ∧ Iface.AllProper c.2) :
    main ifname e l k evs {} ≠ .ub ∧
      ∀ s, main ifname e l k evs {} = .ok () s → s.fds = [] ∧ s.ctxs = [] := by
  have hk : ∀ c ∈ (e, l) :: evs.flatMap Ev.calls, anyPar.Ok True c.1 ∧ Iface.AllProper c.2 ∧ Within ifname anyName c.2 :=
    fun c m => ⟨any_ok (h c m).1 trivial, (h c m).2, fun _ _ _ _ _ => trivial⟩
  have := spec_main any_few (hk _ (.head _)).1 (hk _ (.head _)).2.1 (hk _ (.head _)).2.2 k (evs := evs)
    (fun ev m => evOk_of fun c mc => hk c (.tail _ (List.mem_flatMap.mpr ⟨ev, m, mc⟩)))
  unfold Spec at this
  refine ⟨fun e => ?_, fun s e => ?_⟩
  · rw [e] at this
    exact this
  · rw [e] at this
    exact this

/-- **C70.** After any number of rounds the open descriptors are exactly those of the interfaces and that of netlink,
and the contexts exactly those of the interfaces; no two share one.  Every interface has a socket and a context for IPv4,
and a context for IPv6 if it has a socket for it. -/
theorem C70_held_partial (ifname : Option Bytes) (e : Env) (l : Option (List Ifa)) (k : Sock) (evs : List Ev)
    (h : ∀ c ∈ (e, l) :: evs.flatMap Ev.calls, c.1.Fresh ∧ Iface.AllProper c.2) (nl : Option Nat) (t : List Slot) (s : Sys)
    (hr : upTo ifname e l k evs {} = .ok (nl, t) s) :
    s.fds.Perm (t.flatMap (fun x => x.sd.toList ++ x.sd6.toList) ++ nl.toList) ∧ s.fds.Nodup ∧
      s.ctxs.Perm (t.flatMap fun x => x.mdns.toList ++ x.mdns6.toList) ∧ s.ctxs.Nodup ∧
      (t.map (·.i.name)).Nodup ∧
      ∀ x ∈ t, x.sd.isSome ∧ x.mdns.isSome ∧ (x.sd6.isSome → x.mdns6.isSome) := by
  have := any_upTo h hr
  refine ⟨this.own.fds, this.own.fds.nodup_iff.mpr this.own.fnodup, this.own.ctxs,
    this.own.ctxs.nodup_iff.mpr this.own.cnodup, ?_, ?_⟩
  · simpa [Iface.Distinct, Function.comp_def] using this.tab.dist
  · exact fun x m => ⟨this.tab.sock x m, this.tab.ctx x m, (this.tab.good x m).v6⟩

theorem nodup_le {α : Type} [BEq α] [LawfulBEq α] : ∀ {l m : List α}, l.Nodup → (∀ a ∈ l, a ∈ m) → l.length ≤ m.length
  | [], _, _, _ => Nat.zero_le _
  | a :: l, m, hn, hs => by
    have ⟨h1, h2⟩ := List.nodup_cons.mp hn
    have ha := hs a (.head _)
    have := nodup_le (m := m.erase a) h2 fun b hb => by
      have : b ≠ a := fun e => h1 (e ▸ hb)
      exact (List.mem_erase_of_ne this).mpr (hs b (.tail _ hb))
    rw [List.length_erase_of_mem ha] at this
    have := List.length_pos_of_mem ha
    rw [List.length_cons]
    omega

/-- **C70.** If the system numbers descriptors densely, as POSIX demands (`base` others may be open), and no more than
`W.length` interfaces ever have addresses, `base + 2 * W.length` being below 1024, then no descriptor is too large for
`select`. -/
theorem C70_numbers_partial (ifname : Option Bytes) (e : Env) (l : Option (List Ifa)) (k : Sock) (evs : List Ev)
    (base : Nat) (W : List Bytes) (hW : base + 2 * W.length < 1024)
    (h : ∀ c ∈ (e, l) :: evs.flatMap Ev.calls, c.1.Fresh ∧ (∀ fds, c.1.fd fds ≤ base + fds.length) ∧ Iface.AllProper c.2 ∧
      ∀ l', c.2 = some l' → ∀ n a, Iface.Listed ifname l' n a → n ∈ W) :
    main ifname e l k evs {} ≠ .large := by
  let p : Par := ⟨(· < 1024), False, 1 + 2 * W.length⟩
  have hb : p.Few (· ∈ W) := by
    refine .inr fun ns hn hs => ?_
    have := nodup_le hn hs
    show 1 + 2 * ns.length ≤ 1 + 2 * W.length
    omega
  have hk : ∀ c ∈ (e, l) :: evs.flatMap Ev.calls, p.Ok True c.1 ∧ Iface.AllProper c.2 ∧ Within ifname (· ∈ W) c.2 := by
    intro c m
    obtain ⟨h1, h2, h3, h4⟩ := h c m
    refine ⟨⟨h1, fun fds hf => ?_, .inl trivial⟩, h3, h4⟩
    have := h2 fds
    rcases hf with hf | hf
    · cases hf
    · have : fds.length < 1 + 2 * W.length := hf
      show c.1.fd fds < 1024
      omega
  have := spec_main hb (hk _ (.head _)).1 (hk _ (.head _)).2.1 (hk _ (.head _)).2.2 k (evs := evs)
    (fun ev m => evOk_of fun c mc => hk c (.tail _ (List.mem_flatMap.mpr ⟨ev, m, mc⟩)))
  intro e
  unfold Spec at this
  rw [e] at this
  obtain ⟨fd, h1, h2⟩ := this
  exact h2 h1

/-! ### C71 -/

theorem held_once {α β : Type} {f : α → List β} : ∀ {t : List α}, (t.flatMap f).Nodup → ∀ {x y : α}, x ∈ t → y ∈ t → ∀ {a : β},
    a ∈ f x → a ∈ f y → x = y
  | z :: t, h, x, y, hx, hy, a, ax, ay => by
    rw [List.flatMap_cons, List.nodup_append] at h
    rcases List.mem_cons.mp hx with rfl | mx
    · rcases List.mem_cons.mp hy with rfl | my
      · rfl
      · exact absurd rfl (h.2.2 a ax a (List.mem_flatMap.mpr ⟨y, my, ay⟩))
    · rcases List.mem_cons.mp hy with rfl | my
      · exact absurd rfl (h.2.2 a ay a (List.mem_flatMap.mpr ⟨x, mx, ax⟩))
      · exact held_once h.2.1 mx my ax ay

/-- **C71.** If the socket of an interface fails, the interface is given up: nothing of it is left open or allocated.  The
others keep their sockets and contexts; a failing socket for IPv6 is closed, and the interface goes on with IPv4. -/
theorem C71_given_up_partial (ifname : Option Bytes) (e : Env) (l : Option (List Ifa)) (k : Sock) (evs : List Ev)
    (h : ∀ c ∈ (e, l) :: evs.flatMap Ev.calls, c.1.Fresh ∧ Iface.AllProper c.2) (nl : Option Nat) (t : List Slot) (s : Sys)
    (hr : upTo ifname e l k evs {} = .ok (nl, t) s) (ok4 ok6 : Bytes → Bool) (u : List Slot) (s' : Sys)
    (hw : round ifname nl (.work [] ok4 ok6) t s = .ok u s') (x : Slot) (hx : x ∈ t) (hu : x.i.unused = false) :
    (ok4 x.i.name = false → (∀ z ∈ u, z.i.name ≠ x.i.name) ∧ (∀ fd, x.sd = some fd ∨ x.sd6 = some fd → fd ∉ s'.fds) ∧
      ∀ c, x.mdns = some c ∨ x.mdns6 = some c → c ∉ s'.ctxs) ∧
    (ok4 x.i.name = true → ∃ z ∈ u, z.i = x.i ∧ z.sd = x.sd ∧ z.mdns = x.mdns ∧ z.mdns6 = x.mdns6 ∧
      (ok6 x.i.name = true → z.sd6 = x.sd6) ∧
      (ok6 x.i.name = false → z.sd6 = none ∧ ∀ fd, x.sd6 = some fd → fd ∉ s'.fds)) := by
  have st := any_upTo h hr
  have hs : Spec anyPar.L True (round ifname nl (.work [] ok4 ok6) t) s fun u s' =>
      Own s' (tfds u ++ nl.toList) (tctxs u) ∧ Tab anyPar anyName u ∧ Img (Served ok4 ok6) t u := by
    unfold round
    refine (spec_waitFor st.tab st.nl st.own).bind ?_
    rintro _ _ rfl
    have h0 : Spec anyPar.L True (whenSome nl useFd) s fun _ s' => s = s' := by
      cases nl with
      | none => exact Spec.pure rfl
      | some fd => exact (spec_useFd st.own (by simp) : Spec anyPar.L True (useFd fd) s _)
    refine h0.bind ?_
    rintro _ _ rfl
    refine Spec.bind (Spec.pure (Q := fun u s' => t = u ∧ s = s') ⟨rfl, rfl⟩ : Spec anyPar.L True (scans ifname [] t) s _) ?_
    rintro _ _ ⟨rfl, rfl⟩
    refine (spec_serve (C := []) st.tab any_few (nl_len nl) (by simpa using st.own)).mono ?_
    rintro v s2 ⟨h3, h4, h5⟩
    exact ⟨by simpa using h3, h4, h5⟩
  unfold Spec at hs
  rw [hw] at hs
  obtain ⟨own, tab, img⟩ := hs
  have hd := st.tab.dist
  have same : ∀ y ∈ t, y.i.name = x.i.name → y = x := by
    intro y my e
    have key : ∀ {t : List Slot}, Iface.Distinct (t.map (·.i)) → x ∈ t → y ∈ t → y = x := by
      intro t hd mx my
      induction t with
      | nil => cases mx
      | cons z t ih =>
        unfold Iface.Distinct at hd
        rw [List.map_cons, List.map_cons, List.nodup_cons] at hd
        rcases List.mem_cons.mp mx with rfl | mx'
        · rcases List.mem_cons.mp my with rfl | my'
          · rfl
          · exact absurd (e ▸ List.mem_map_of_mem (List.mem_map_of_mem my')) hd.1
        · rcases List.mem_cons.mp my with rfl | my'
          · exact absurd (e.symm ▸ List.mem_map_of_mem (List.mem_map_of_mem mx')) hd.1
          · exact ih hd.2 mx' my'
    exact key hd hx my
  have fnodup : (tfds t).Nodup := (List.nodup_append.mp st.own.fnodup).1
  have cnodup : (tctxs t).Nodup := st.own.cnodup
  have served : ∀ z ∈ u, ∃ y ∈ t, z.i = y.i ∧ (∀ fd ∈ z.fds, fd ∈ y.fds) ∧ (∀ c ∈ z.ctxs, c ∈ y.ctxs) ∧
      (y.i.unused = false → ok4 y.i.name = true) ∧
      (y.i.unused = false → y.mdns6.isSome → ok6 y.i.name = false → z.sd6 = none) := by
    intro z mz
    obtain ⟨y, my, q1, q2, q3⟩ := img.mem mz
    refine ⟨y, my, ?_⟩
    cases hy : y.i.unused with
    | true =>
      cases q1 hy
      exact ⟨rfl, fun _ m => m, fun _ m => m, fun h => (by cases h), fun h => (by cases h)⟩
    | false =>
      cases ho : ok4 y.i.name with
      | false => cases q2 hy ho
      | true =>
        obtain ⟨z', e', a, b, c, d, f⟩ := q3 hy ho
        cases e'
        refine ⟨a, ?_, ?_, fun _ => rfl, fun _ h6 o6 => by rw [f, if_pos ⟨h6, o6⟩]⟩
        · unfold Slot.fds
          rw [b, f]
          split
          · intro fd m
            simp at m
            simp [m]
          · exact fun _ m => m
        · unfold Slot.ctxs
          rw [c, d]
          exact fun _ m => m
  -- a descriptor of `x` is neither that of netlink nor of another interface
  have open_of : ∀ fd ∈ x.fds, fd ∈ s'.fds → ∃ z ∈ u, z.i.name = x.i.name ∧ fd ∈ z.fds := by
    intro fd m ho
    rcases List.mem_append.mp (own.fds.mem_iff.mp ho) with mu | mn
    · obtain ⟨z, mz, hz⟩ := List.mem_flatMap.mp mu
      obtain ⟨y, my, e1, e2, -⟩ := served z mz
      have := held_once fnodup my hx (e2 fd hz) m
      exact ⟨z, mz, by rw [e1, this], hz⟩
    · exact absurd rfl ((List.nodup_append.mp st.own.fnodup).2.2 fd (List.mem_flatMap.mpr ⟨x, hx, m⟩) fd mn)
  constructor
  · intro ho
    have gone : ∀ z ∈ u, z.i.name ≠ x.i.name := by
      intro z mz e
      obtain ⟨y, my, e1, -, -, e4, -⟩ := served z mz
      have := same y my (by rw [← e1, e])
      subst this
      rw [ho] at e4
      cases e4 hu
    refine ⟨gone, fun fd hfd ho' => ?_, fun c hc ho' => ?_⟩
    · have m : fd ∈ x.fds := by
        unfold Slot.fds
        rcases hfd with e | e <;> simp [e]
      obtain ⟨z, mz, e, -⟩ := open_of fd m ho'
      exact gone z mz e
    · have m : c ∈ x.ctxs := by
        unfold Slot.ctxs
        rcases hc with e | e <;> simp [e]
      obtain ⟨z, mz, hz⟩ := List.mem_flatMap.mp (own.ctxs.mem_iff.mp ho')
      obtain ⟨y, my, e1, -, e3, -⟩ := served z mz
      have := held_once cnodup my hx (e3 c hz) m
      exact gone z mz (by rw [e1, this])
  · intro ho
    obtain ⟨y, ⟨-, -, q3⟩, hm⟩ := img.back hx
    obtain ⟨z, rfl, a, b, c, d, f⟩ := q3 hu ho
    refine ⟨z, hm z rfl, a, b, c, d, fun h6 => by rw [f, if_neg (fun h => by rw [h6] at h; cases h.2)], fun h6 => ?_⟩
    have hnone : z.sd6 = none := by
      rw [f]
      split
      · rfl
      · rename_i hn
        cases h : x.sd6 with
        | none => rfl
        | some fd => exact absurd ⟨(st.tab.good x hx).v6 (by rw [h]; rfl), h6⟩ hn
    refine ⟨hnone, fun fd hfd ho' => ?_⟩
    have m : fd ∈ x.fds := by unfold Slot.fds; simp [hfd]
    obtain ⟨z', mz', e, hz'⟩ := open_of fd m ho'
    obtain ⟨y, my, e1, e2, -, -, e5⟩ := served z' mz'
    have := same y my (by rw [← e1, e])
    subst this
    have h6s := (st.tab.good y hx).v6 (by rw [hfd]; rfl)
    have n6 := e5 hu h6s h6
    -- then `fd` would be the socket for IPv4
    unfold Slot.fds at hz'
    rw [n6] at hz'
    have : fd ∈ z'.sd := by simpa using hz'
    obtain ⟨y', my', q1', q2', q3'⟩ := img.mem mz'
    have hn' : y'.i.name = y.i.name := by
      cases hy : y'.i.unused with
      | true => cases q1' hy; exact e
      | false =>
        cases h4 : ok4 y'.i.name with
        | false => cases q2' hy h4
        | true =>
          obtain ⟨z2, e2', a2, -⟩ := q3' hy h4
          cases e2'
          rw [← a2, e]
    have := same y' my' hn'
    subst this
    obtain ⟨z2, e2', a2, b2, -⟩ := q3' hu ho
    cases e2'
    have hsd : y'.sd = some fd := by rw [← b2]; assumption
    have hnd : y'.fds.Nodup := (List.pairwise_flatMap.mp fnodup).1 y' hx
    unfold Slot.fds at hnd
    rw [hsd, hfd] at hnd
    simp at hnd

/-- **C71.** A scan that finds an address of an interface leaves it, if the system gives what is asked for, with an open
socket and a context, configured for the addresses found; a new interface (or one that was given up) also with a
socket and a context for IPv6, if that can be had. -/
theorem C71_back_partial (ifname : Option Bytes) (e : Env) (l : Option (List Ifa)) (k : Sock) (evs : List Ev)
    (h : ∀ c ∈ (e, l) :: evs.flatMap Ev.calls, c.1.Fresh ∧ Iface.AllProper c.2) (nl : Option Nat) (t : List Slot) (s : Sys)
    (hr : upTo ifname e l k evs {} = .ok (nl, t) s) (e' : Env) (l' : List Ifa) (hf : e'.Fresh)
    (hg : ∀ n, e'.sock4 n = .bound ∧ e'.mem4 n = true ∧ e'.mem6 n = true) (hl : Iface.AllProper (some l'))
    (n : Bytes) (a : Iface.Addr) (hn : Iface.Listed ifname l' n a) :
    ∃ u s', sysInit ifname e' (some l') t s = .ok u s' ∧
      ∃ x ∈ u, x.i.name = n ∧ x.i.unused = false ∧ x.i.conf = some (x.i.in4, x.i.in6) ∧
        (∃ fd c, x.sd = some fd ∧ fd ∈ s'.fds ∧ x.mdns = some c ∧ c ∈ s'.ctxs) ∧
        (n ∉ t.map (·.i.name) → e'.sock6 n = .bound →
          ∃ fd c, x.sd6 = some fd ∧ fd ∈ s'.fds ∧ x.mdns6 = some c ∧ c ∈ s'.ctxs) := by
  have st := any_upTo h hr
  have hs : Spec False False (sysInit ifname e' (some l') t) s _ := spec_sysInit (p := anyPar) (C := [])
    ⟨hf, fun _ _ => trivial, .inr hg⟩ any_few hl (fun _ _ _ _ _ => trivial) st.tab (nl_len nl) (by simpa using st.own)
  unfold Spec at hs
  cases hres : sysInit ifname e' (some l') t s with
  | exit s' => rw [hres] at hs; exact hs.elim
  | ub => rw [hres] at hs; exact hs.elim
  | large => rw [hres] at hs; exact hs.elim
  | ok u s' =>
    rw [hres] at hs
    obtain ⟨own, tab, base, six⟩ := hs
    obtain ⟨i, hi, hu, -⟩ := Iface.scan_flag ifname l' (t.map (·.i)) n a hn (Iface.listed_proper hl hn)
    have hj : ∃ j, Iface.setup1 i = some j := by
      unfold Iface.setup1
      split
      · exact ⟨_, rfl⟩
      · rw [hu]; exact ⟨_, rfl⟩
    obtain ⟨j, hj⟩ := hj
    have hfind : Iface.find (u.map (·.i)) n = some j := by
      rw [base, Iface.find_sysInit _ _ _ _ st.tab.dist, hi]
      exact hj
    have hmem := List.mem_of_find?_eq_some hfind
    obtain ⟨x, mx, ex⟩ := List.mem_map.mp hmem
    have hxn : x.i.name = n := by rw [ex]; exact Iface.find_name hfind
    have hxu : x.i.unused = false := by rw [ex, (Iface.setup1_same hj).2.2, hu]
    refine ⟨u, s', rfl, x, mx, hxn, hxu, (tab.settled x mx).2.1 hxu, ?_, ?_⟩
    · obtain ⟨fd, hfd⟩ := Option.isSome_iff_exists.mp (tab.sock x mx)
      obtain ⟨c, hc⟩ := Option.isSome_iff_exists.mp (tab.ctx x mx)
      refine ⟨fd, c, hfd, own.fds.mem_iff.mpr ?_, hc, own.ctxs.mem_iff.mpr ?_⟩
      · exact List.mem_append_left _ (List.mem_flatMap.mpr ⟨x, mx, by unfold Slot.fds; simp [hfd]⟩)
      · exact List.mem_append_left _ (List.mem_flatMap.mpr ⟨x, mx, by unfold Slot.ctxs; simp [hc]⟩)
    · intro hnew h6
      have h6s := six x mx (by rw [hxn]; exact hnew) (by rw [hxn]; exact h6)
      obtain ⟨fd, hfd⟩ := Option.isSome_iff_exists.mp h6s
      obtain ⟨c, hc⟩ := Option.isSome_iff_exists.mp ((tab.good x mx).v6 h6s)
      refine ⟨fd, c, hfd, own.fds.mem_iff.mpr ?_, hc, own.ctxs.mem_iff.mpr ?_⟩
      · exact List.mem_append_left _ (List.mem_flatMap.mpr ⟨x, mx, by unfold Slot.fds; simp [hfd]⟩)
      · exact List.mem_append_left _ (List.mem_flatMap.mpr ⟨x, mx, by unfold Slot.ctxs; simp [hc]⟩)

/-! ### Cases -/

/-- The lowest number from `base` on that is not in the list: what POSIX demands. -/
def lowest (base : Nat) (l : List Nat) : Nat := (((List.range (l.length + 1)).map (base + ·)).find? (· ∉ l)).getD 0

theorem lowest_spec (base : Nat) (l : List Nat) : lowest base l ∉ l ∧ lowest base l ≤ base + l.length := by
  unfold lowest
  cases h : ((List.range (l.length + 1)).map (base + ·)).find? (· ∉ l) with
  | none =>
    exfalso
    have hs : ∀ a ∈ (List.range (l.length + 1)).map (base + ·), a ∈ l := by
      intro a m
      have := List.find?_eq_none.mp h a m
      simpa using this
    have hn : ((List.range (l.length + 1)).map (base + ·)).Nodup :=
      List.pairwise_map.mpr (List.nodup_range.imp fun h e => h (by omega))
    have := nodup_le hn hs
    rw [List.length_map, List.length_range] at this
    omega
  | some a =>
    have h1 := List.find?_some h
    have h2 := List.mem_of_find?_eq_some h
    obtain ⟨k, mk, rfl⟩ := List.mem_map.mp h2
    rw [List.mem_range] at mk
    refine ⟨by simpa using h1, ?_⟩
    show base + k ≤ _
    omega

/-- A system where all goes well. -/
def fine : Env := { fd := lowest 3 }

/-- Another, where there is no IPv6. -/
def old : Env := { fd := lowest 3, sock6 := fun _ => .none }

theorem fine_fresh : fine.Fresh := fun l => (lowest_spec 3 l).1
theorem old_fresh : old.Fresh := fun l => (lowest_spec 3 l).1

/-- Two interfaces. -/
def twoList : List Ifa := Iface.sampleList ++ [⟨[0x77], false, true, true, some (.v4 0xC0A80001)⟩]

theorem two_proper : Iface.AllProper (some twoList) := by
  rintro l ⟨⟩ e he a ha
  rcases List.mem_append.mp he with m | m
  · exact Iface.sample_proper _ rfl e m a ha
  · cases List.mem_singleton.mp m
    cases ha
    simp [Iface.Proper]

/-- The first interface fails, comes back, and then its IPv6 fails. -/
def eventful : List Ev :=
  [.work [] (fun n => n != [0x65]) (fun _ => true),
   .interrupted,
   .work [(fine, some twoList)] (fun _ => true) (fun n => n != [0x65]),
   .reload fine (some twoList)]

theorem eventful_ok : ∀ c ∈ (fine, some twoList) :: eventful.flatMap Ev.calls, c.1.Fresh ∧ Iface.AllProper c.2 := by
  intro c m
  have : c = (fine, some twoList) := by
    simp [eventful, Ev.calls] at m
    exact m
  rw [this]
  exact ⟨fine_fresh, two_proper⟩

/-- What is held of an interface. -/
def held : R (Option Nat × List Slot) → List (Bytes × Option Nat × Option Nat × Option Nat × Option Nat)
  | .ok r _ => r.2.map socks
  | _ => []

example : held (upTo none fine (some twoList) .bound [] {}) =
    [([0x65], some 3, some 4, some 0, some 1), ([0x77], some 5, some 6, some 2, some 3)] := by decide +kernel

example : held (upTo none fine (some twoList) .bound eventful {}) =
    [([0x77], some 5, some 6, some 2, some 3), ([0x65], some 3, none, some 4, some 5)] := by decide +kernel

example : main none fine (some twoList) .bound eventful {} = .ok () { next := 6 } := by decide +kernel

/-- Without IPv6 the daemon works with IPv4 alone. -/
example : held (upTo none old (some twoList) .bound [.work [] (fun _ => true) (fun _ => true)] {}) =
    [([0x65], some 3, none, some 0, none), ([0x77], some 4, none, some 1, none)] := by decide +kernel

/-- `C71_given_up_partial` and `C71_back_partial` apply to the first interface of the sample. -/
example : Iface.Listed none twoList [0x65] (.v4 0x0A000001) ∧
    held (upTo none fine (some twoList) .bound (eventful.take 1) {}) = [([0x77], some 5, some 6, some 2, some 3)] :=
  ⟨⟨⟨[0x65], false, true, true, some (.v4 0x0A000001)⟩, by decide, rfl, rfl, rfl, rfl, .inl rfl, rfl⟩, by decide +kernel⟩

theorem two_listed {n : Bytes} {a : Iface.Addr} (h : Iface.Listed none twoList n a) : n ∈ [[0x65], [0x77]] := by
  obtain ⟨e, he, h1, h2, -⟩ := h
  simp only [twoList, Iface.sampleList, List.cons_append, List.nil_append, List.mem_cons, List.not_mem_nil, or_false] at he
  rcases he with rfl | rfl | rfl | rfl | rfl | rfl | rfl <;> simp_all

example : ∀ c ∈ (fine, some twoList) :: eventful.flatMap Ev.calls, c.1.Fresh ∧ (∀ fds, c.1.fd fds ≤ 3 + fds.length) ∧
    Iface.AllProper c.2 ∧ ∀ l', c.2 = some l' → ∀ n a, Iface.Listed none l' n a → n ∈ [[0x65], [0x77]] := by
  intro c m
  have : c = (fine, some twoList) := by
    simp [eventful, Ev.calls] at m
    exact m
  rw [this]
  refine ⟨fine_fresh, fun fds => (lowest_spec 3 fds).2, two_proper, ?_⟩
  rintro l' ⟨⟩ n a h
  exact two_listed h

/-- An interface with the address 0.0.0.0 gets no context, and reading the configuration again uses it. -/
theorem C70_zero_address_counterexample : ∃ l, main none fine (some l) .bound [.reload fine (some l)] {} = .ub :=
  ⟨[⟨[0x65], false, true, true, some (.v4 0)⟩], by decide +kernel⟩

/-- If many descriptors are open already, `select` cannot be used. -/
theorem C70_large_counterexample : ∃ e : Env, e.Fresh ∧
    main none e (some twoList) .bound [.interrupted] {} = .large :=
  ⟨{ fd := lowest 1024 }, fun l => (lowest_spec 1024 l).1, by decide +kernel⟩

/-- After a failure IPv6 does not come back, although the scans find the same addresses and a socket could be had. -/
theorem C71_ipv6_counterexample : ∃ evs : List Ev,
    (∀ ev ∈ evs.drop 1, ev.calls = [(fine, some twoList)]) ∧ 1 < evs.length ∧
    held (upTo none fine (some twoList) .bound (evs.take 1) {}) =
      [([0x65], some 3, none, some 0, some 1), ([0x77], some 5, none, some 2, some 3)] ∧
    held (upTo none fine (some twoList) .bound evs {}) =
      [([0x65], some 3, none, some 0, some 1), ([0x77], some 5, none, some 2, some 3)] :=
  ⟨[.work [] (fun _ => true) (fun _ => false), .work [(fine, some twoList)] (fun _ => true) (fun _ => true),
    .work [(fine, some twoList)] (fun _ => true) (fun _ => true), .reload fine (some twoList)],
    by simp [Ev.calls], by decide, by decide +kernel, by decide +kernel⟩

end Mdns.Proc
