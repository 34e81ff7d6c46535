import Verif.Lemmas.Trace

/-!
# A response acts as its answers one by one
-/

namespace Mdns

theorem Foreign.congr {env : Env} {c c' : Core} {src : Addr} (h : Foreign env c src) (h1 : c'.addr = c.addr)
    (h2 : c'.addr6 = c.addr6) (h3 : c'.locals = c.locals ∨ ∃ k, env.ifaddrs k = some c'.locals) : Foreign env c' src := by
  obtain ⟨f1, f2, f3, f4⟩ := h
  refine ⟨by rw [h1]; exact f1, by rw [h2]; exact f2, ?_, f4⟩
  rcases h3 with h3 | ⟨k, h3⟩
  · rw [h3]
    exact f3
  · exact f4 k _ h3

/-- The state right before an answer enters the cache. -/
structure Before (env : Env) (c c0 : Core) (src : Addr) : Prop where
  frame : Frame env c c0
  now : c0.now = c.now
  cls : c0.cls = c.cls
  inv : CInv c0
  foreign : Foreign env c0 src

/-- An answer from elsewhere enters the cache. -/
theorem InA.enters {env : Env} {src : Addr} {a : Resource} {did did' : Bool} {c c' : Core} {l l' : Lists}
    (n : InA env src a did c l did' c' l') (h : DInv c l) (hf : Foreign env c src) :
    ∃ c0, Before env c c0 src ∧ c0.cacheIn env a src = .ok c' := by
  cases n with
  | cache _ e => exact ⟨c.received a, ⟨received_frame env c a, rfl, rfl, h.cinv.received a, hf.congr rfl rfl (.inl rfl)⟩, e⟩
  | own _ _ hn => exact absurd hf hn
  | @conflict r x c1 c' _ hl hx _ e =>
    have e1 := doneSt_recfree (c1.heard [.conflict r x.rr.name x.rr.type]) l r x
    have f : Frame env c (doneSt (c1.heard [.conflict r x.rr.name x.rr.type]) l r x).c :=
      (hl.frame.trans (Frame.heard _ (by simp [Event.quiet]))).trans (.recfree e1)
    have hi := (done_inv h hl hx).cinv
    generalize (doneSt (c1.heard [.conflict r x.rr.name x.rr.type]) l r x).c = c2 at *
    have f2 := f.trans (received_frame env c2 a)
    obtain ⟨ls, b, k, rfl, hls⟩ := hl
    refine ⟨c2.received a, ⟨f2, ?_, ?_, hi.received a, hf.congr ?_ ?_ (f2.locals.imp And.left id)⟩, e⟩
    · exact (congrArg Core.now e1 : c2.recfree.now = _)
    · exact (congrArg Core.cls e1 : c2.recfree.cls = _)
    · exact (congrArg Core.addr e1 : c2.recfree.addr = _)
    · exact (congrArg Core.addr6 e1 : c2.recfree.addr6 = _)

/-- What an answer leaves unchanged. -/
structure Same (env : Env) (c c' : Core) (src : Addr) : Prop where
  now : c'.now = c.now
  cls : c'.cls = c.cls
  foreign : Foreign env c' src

theorem InA.same {env : Env} {src : Addr} {a : Resource} {did did' : Bool} {c c' : Core} {l l' : Lists}
    (n : InA env src a did c l did' c' l') (ha : a.WF) (h : DInv c l) (hf : Foreign env c src) : Same env c c' src := by
  obtain ⟨c0, b, e⟩ := n.enters h hf
  obtain ⟨c1, c2, ev1, ev2, e2, hc, _⟩ := b.inv.cacheIn env ha src
  rw [e] at e2
  cases e2
  have hr := hc.rest
  refine ⟨(rest_now hr).trans b.now, ?_, b.foreign.congr ?_ ?_ (.inl (rest_locals hr))⟩
  · exact ((congrArg Core.cls hr : c'.rest.cls = c0.rest.cls)).trans b.cls
  · exact (congrArg Core.addr hr : c'.rest.addr = c0.rest.addr)
  · exact (congrArg Core.addr6 hr : c'.rest.addr6 = c0.rest.addr6)

theorem inAnswers_split {env : Env} {src : Addr} : ∀ (pre : List Resource) (did : Bool) {c : Core} {l : Lists},
    (∀ a ∈ pre, a.WF) → DInv c l → Foreign env c src →
    ∃ did' c' l', inAnswers env src pre did ⟨c, l⟩ = .ok ((), ⟨c', l'⟩) ∧
      (∀ post, inAnswers env src (pre ++ post) did ⟨c, l⟩ = inAnswers env src post did' ⟨c', l'⟩) ∧
      DInv c' l' ∧ Same env c c' src
  | [], did, c, l, _, h, hf => ⟨did, c, l, rfl, fun _ => rfl, h, rfl, rfl, hf⟩
  | a :: as, did, c, l, ha, h, hf => by
    obtain ⟨did', c1, l1, e1, n1⟩ := inAnswer_ok (env := env) (src := src) (did := did) h (ha a (by simp))
    have h1 := n1.inv (ha a (by simp)) h
    have s1 := n1.same (ha a (by simp)) h hf
    obtain ⟨did2, c', l', e, ep, h2, s2⟩ := inAnswers_split as did' (fun a m => ha a (by simp [m])) h1 s1.foreign
    refine ⟨did2, c', l', ?_, fun post => ?_, h2, s2.now.trans s1.now, s2.cls.trans s1.cls, s2.foreign⟩
    · unfold inAnswers
      rw [M.bind_ok e1]
      exact e
    · rw [List.cons_append]
      show (inAnswer env src a did >>= fun did => inAnswers env src (as ++ post) did) ⟨c, l⟩ = _
      rw [M.bind_ok e1]
      exact ep post

/-- A response without answers. -/
theorem inMsg_start {env : Env} {now : TV} {src : Addr} {c : Core} {l : Lists} (h : DInv c l)
    (hs : c.shutdown = false) (hf : Foreign env c src) : ∃ c1, DInv c1 l ∧ Same env { c with now := now } c1 src ∧
      Frame env c c1 ∧ ∀ m : Msg, m.header.qr = true → inMsg env now m src ⟨c, l⟩ =
        (do inAnswers env src m.an false; pure 0 : M Lists Nat) ⟨c1, l⟩ := by
  have h0 := h.atNow now
  have hf0 : Foreign env { c with now := now } src := hf
  obtain ⟨b, c1, e1, hl, hf1⟩ := isLocal_ok env src { c with now := now } l
  obtain ⟨rfl, hf2⟩ := hf1 hf0
  refine ⟨c1, ⟨hl.cinv h0.cinv, hl.rinv h0.rinv⟩, ?_, (Frame.now c now).trans hl.frame, ?_⟩
  · obtain ⟨_, _, _, rfl, _⟩ := hl
    exact ⟨rfl, rfl, hf2⟩
  · intro m hq
    unfold inMsg
    rw [M.bind_ok core_ok, hs, if_neg (by simp), M.bind_ok modC_ok, M.bind_ok e1, hq]
    rfl

/-- The source address of a packet is none of this host's: not the daemon's own and not
reported by the system. -/
structure Elsewhere (env : Env) (c : Core) (src : Addr) : Prop where
  v4 : ∀ a, src.ip = .v4 a → a ≠ c.addr
  v6 : ∀ a, src.ip = .v6 a → a ≠ c.addr6
  system : ∀ n l, env.ifaddrs n = some l → src.ip ∉ l

theorem Elsewhere.foreign {env : Env} {d : D Ptrs} {src : Addr} (h : Elsewhere env d.c src) (hr : Reach env d) :
    Foreign env d.c src := by
  refine ⟨h.v4, h.v6, ?_, h.system⟩
  rcases hr.locals with e | ⟨n, e⟩
  · rw [e]
    simp
  · exact h.system n _ e

/-- Calls on the representation with heads and links from those on lists. -/
theorem Rep.call {env : Env} {d : D Ptrs} {l : Lists} (h : Rep d l) {o : Op} {a : OpOut} {c' : Core} {l' : Lists}
    (e : Mdns.step env o ⟨d.c, l⟩ = .ok (a, ⟨c', l'⟩)) :
    ∃ q', Mdns.step env o d = .ok (a, ⟨c', q'⟩) := by
  obtain ⟨p', e', _⟩ := Sim.step env o d.q l d.c h.rq a c' l' e
  exact ⟨p', e'⟩

/-- A response arrives from elsewhere; `pre` are its answers before `a`. -/
structure Answered (env : Env) (d : D Ptrs) (m : Msg) (src : Addr) (pre : List Resource) (a : Resource) : Prop where
  reach : Reach env d
  up : d.c.shutdown = false
  resp : m.header.qr = true
  src : Elsewhere env d.c src
  wf : ∀ r ∈ pre ++ [a], r.WF

/-- The response without and with its last answer. -/
theorem Answered.split {env : Env} {d : D Ptrs} {m : Msg} {src : Addr} {pre : List Resource} {a : Resource}
    (h : Answered env d m src pre a) (now : TV) :
    ∃ d1 d2 c0, step env (.recv now { m with an := pre } src) d = .ok (.unit, d1) ∧
      step env (.recv now { m with an := pre ++ [a] } src) d = .ok (.unit, d2) ∧ Reach env d1 ∧ Reach env d2 ∧
      d1.c.now = now ∧ d1.c.cls = d.c.cls ∧
      Before env d1.c c0 src ∧ c0.cacheIn env a src = .ok d2.c := by
  obtain ⟨l, hr⟩ := h.reach.rep
  obtain ⟨c1, i1, s1, _, hm⟩ := inMsg_start (now := now) hr.inv h.up (h.src.foreign h.reach)
  have hwa : a.WF := h.wf a (by simp)
  have hwp : ∀ r ∈ pre, r.WF := fun r m => h.wf r (by simp [m])
  obtain ⟨did, c2, l2, e2, ep, i2, s2⟩ := inAnswers_split pre false hwp i1 s1.foreign
  obtain ⟨did', c3, l3, e3, n3⟩ := inAnswer_ok (env := env) (src := src) (did := did) i2 hwa
  obtain ⟨c0, hb, hc⟩ := n3.enters i2 s2.foreign
  have ep : inAnswers env src (pre ++ [a]) false ⟨c1, l⟩ =
      (inAnswer env src a did >>= fun did => inAnswers env src [] did) ⟨c2, l2⟩ := ep [a]
  rw [M.bind_ok e3] at ep
  have k1 : step env (.recv now { m with an := pre } src) (⟨d.c, l⟩ : D Lists) = .ok (.unit, ⟨c2, l2⟩) := by
    show (inMsg env now { m with an := pre } src >>= fun _ => (pure .unit : M Lists OpOut)) ⟨d.c, l⟩ = _
    have e := hm { m with an := pre } h.resp
    rw [M.bind_ok e2] at e
    rw [M.bind_ok e]
    rfl
  have k2 : step env (.recv now { m with an := pre ++ [a] } src) (⟨d.c, l⟩ : D Lists) = .ok (.unit, ⟨c3, l3⟩) := by
    show (inMsg env now { m with an := pre ++ [a] } src >>= fun _ => (pure .unit : M Lists OpOut)) ⟨d.c, l⟩ = _
    have e := hm { m with an := pre ++ [a] } h.resp
    rw [M.bind_ok ep] at e
    rw [M.bind_ok e]
    rfl
  obtain ⟨q1, f1⟩ := hr.call k1
  obtain ⟨q2, f2⟩ := hr.call k2
  exact ⟨⟨c2, q1⟩, ⟨c3, q2⟩, c0, f1, f2, h.reach.step (o := .recv now { m with an := pre } src) hwp f1,
    h.reach.step (o := .recv now { m with an := pre ++ [a] } src) h.wf f2, s2.now.trans s1.now, s2.cls.trans s1.cls, hb, hc⟩

end Mdns
