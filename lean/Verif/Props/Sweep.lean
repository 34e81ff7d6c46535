import Verif.Lemmas.Sweep
import Verif.Props.Questions

/-!
# C23: cached records expire
-/

namespace Mdns

theorem listed_rrs {c c' : Core} {host : Bytes} {type : Nat} (h : (c'.rrs (bucket host lprime)).Sublist (c.rrs (bucket host lprime))) :
    (c'.listed host type).Sublist (c.listed host type) := by
  rw [listed_eq, listed_eq]
  exact h.filter _

/-- C23: `mdnsd_out` only removes records from the cache whose time has passed; the others stay and
keep their order.  What is reported meanwhile are removed records, with lifetime 0, each once.  If
callbacks go on for records that go away, then each record that is removed is reported, provided a
query for its name and type is registered and no query of type ANY for the name was ever ended;
see `C23_report_counterexample`.

All records whose time has passed are removed if a day has passed since this was last done and
nothing else was sent. -/
theorem C23_expiry_partial {env : Env} {d d' : D Ptrs} (h : Reach env d) {now : TV} {ret : Nat} {m : Out} {to : Addr}
    (hs : OpSafe env d.c d.q.walk (.send now)) (e : Mdns.step env (.send now) d = .ok (.sent ret m to, d')) :
    ∃ evs, d'.c.log = d.c.log ++ evs ∧
      (∀ host type, (d'.c.listed host type).Sublist (d.c.listed host type) ∧
        ∀ b ∈ d.c.listed host type, now.sec < b.ttl → b ∈ d'.c.listed host type) ∧
      (∀ b ∈ answersOf evs, ∃ b' ∈ d.c.listed b.name b.type,
        b = { b' with ttl := 0 } ∧ b'.ttl ≤ now.sec ∧ b' ∉ d'.c.listed b.name b.type) ∧
      (answersOf evs).Pairwise (fun a b => ¬ SameRec a b) ∧
      (env.KeepOnExpiry → ∀ host type, ∀ b ∈ d.c.listed host type, b ∉ d'.c.listed host type →
        (callback d.c.log b.name b.type).isSome → Event.unregistered b.name 255 ∉ d.c.log →
        { b with ttl := 0 } ∈ answersOf evs) ∧
      ((ret = 0 ∧ d.c.shutdown = false) ∨ (∃ host type, m.asks host type = true) → d.c.expireall < now.sec →
        ∀ host type, ∀ b ∈ d'.c.listed host type, now.sec < b.ttl) := by
  have hd := h.did hs e
  have hi := h.inv.cinv
  have hl := h.linked
  have key : ∀ r, (Section.ns, r) ∈ m.tags → ∃ p ∈ entries m.ops, p.sec = .ns := by
    intro r mr
    rcases packet_entries h hs e with h1 | ⟨h1, h2⟩
    · rw [h1] at mr
      cases mr
    · rw [h1]
      refine ⟨_, List.mem_map_of_mem mr, ?_⟩
      obtain ⟨x, hx⟩ := h2 _ mr
      unfold Core.entry
      rw [hx]
  have hi' : CInv d'.c := (h.step hs e).inv.cinv
  generalize d'.c = c', d'.lists = l' at hd hi'
  cases hd with
  | send n =>
    have hi1 : CInv { d.c with now := now } := (h.inv.atNow now).cinv
    obtain ⟨evs, w⟩ := n.asking.swept hi1
    have live_iff : ∀ b : Answer, ({ d.c with now := now } : Core).live b = true ↔ now.sec < b.ttl := fun b => by
      simp [Core.live]
    have dead_iff : ∀ b : Answer, ({ d.c with now := now } : Core).live b = false ↔ b.ttl ≤ now.sec := fun b => by
      simp [Core.live]
    refine ⟨evs, w.log, fun host type => ⟨listed_rrs (w.sub _), fun b mb hb => ?_⟩, fun b mb => ?_, w.once,
      fun hk host type b mb hn hcb hu => ?_, fun hr hx host type b mb => ?_⟩
    · rw [listed_eq, List.mem_filter] at mb ⊢
      refine ⟨?_, mb.2⟩
      have : b ∈ (d.c.rrs (bucket host lprime)).filter (({ d.c with now := now } : Core).live) :=
        List.mem_filter.mpr ⟨mb.1, (live_iff b).mpr hb⟩
      have h2 : b ∈ (c'.rrs (bucket host lprime)).filter (({ d.c with now := now } : Core).live) := by
        rw [w.live]
        exact this
      exact (List.mem_filter.mp h2).1
    · obtain ⟨i, a, ma, hd, rfl, hn⟩ := w.told b mb
      have ei := hi1.one (i := i) (j := bucket a.name lprime) ma (by
        obtain ⟨en, me, rfl⟩ := List.mem_map.mp ma
        rw [show bucket en.rr.name lprime = i from hi.cbucket i en me]
        exact List.mem_map_of_mem me) (SameRec.refl _)
      refine ⟨a, ?_, rfl, (dead_iff a).mp hd, ?_⟩
      · rw [listed_eq, List.mem_filter, is_iff]
        exact ⟨ei.2 ▸ ma, rfl, .inl rfl⟩
      · rw [listed_eq, List.mem_filter]
        rintro ⟨h1, _⟩
        exact hn (ei.2 ▸ h1)
    · obtain ⟨en, me, rfl, hq⟩ := hl.asked hi mb hcb hu
      rcases w.ask (w.keep hk) _ en me hq with ⟨e', m', hr, _⟩ | ⟨_, h2⟩
      · refine absurd ?_ hn
        rw [listed_eq, List.mem_filter] at mb ⊢
        exact ⟨hr ▸ List.mem_map_of_mem m', mb.2⟩
      · exact h2
    · rw [listed_eq, List.mem_filter] at mb
      rcases n.asking.clean with ⟨_, h1⟩ | ⟨_, h1⟩
      · exact (live_iff b).mp (h1 _ b mb.1)
      · refine absurd hx (h1 ?_)
        rcases hr with hr | ⟨host, type, ha⟩
        · exact .inl hr
        · right
          unfold Out.asks at ha
          simp only [Bool.and_eq_true, Bool.not_eq_true', List.all_eq_true, bne_iff_ne] at ha
          obtain ⟨⟨hq, hns⟩, hany⟩ := ha
          refine ⟨hq, ?_, fun r mr => ?_⟩
          · intro h0
            rw [h0] at hany
            simp [questions] at hany
          · obtain ⟨p, mp, hp⟩ := key r mr
            exact hns p mp hp

/-! ### A day later -/

/-- All records were cached or are kept for a time after `T`, or the cache is swept soon. -/
def Tidy (T : Nat) (c : Core) : Prop := c.expireall ≤ T + gcInterval ∨ ∀ i, ∀ a ∈ c.rrs i, T < a.ttl

theorem Reach.exp {env : Env} {d d' : D Ptrs} {o : Op} {a : OpOut} (h : Reach env d) (hs : OpSafe env d.c d.q.walk o)
    (e : Mdns.step env o d = .ok (a, d')) : d'.c.expireall = d.c.expireall ∨
      ∃ t, o.clock = some t ∧ d'.c.expireall = t.sec + gcInterval ∧ ∀ i, ∀ a ∈ d'.c.rrs i, t.sec < a.ttl := by
  have hd := h.did hs e
  have hi := h.inv
  generalize d'.c = c', d'.lists = l' at hd
  by_cases ho : ∃ t, o = .send t
  · obtain ⟨t, rfl⟩ := ho
    cases hd with
    | send n =>
      rcases n.asking.clean with ⟨h1, h2⟩ | ⟨h1, _⟩
      · exact .inr ⟨t, rfl, h1, fun i a m => by simpa [Core.live] using h2 i a m⟩
      · exact .inl h1
  · obtain ⟨c0, evs, h0, ht, _⟩ := hd.tends hi fun t e => ho ⟨t, e⟩
    left
    rw [ht.exp]
    rcases h0 with rfl | rfl
    · rfl
    · unfold Core.clocked
      split <;> rfl

theorem Reach.tidy {env : Env} {d d' : D Ptrs} {o : Op} {a : OpOut} (h : Reach env d) (hs : OpSafe env d.c d.q.walk o)
    (e : Mdns.step env o d = .ok (a, d')) {T : Nat} (hT : ∀ t, o.clock = some t → T ≤ t.sec)
    (ht : Tidy T d.c) : Tidy T d'.c := by
  rcases h.exp hs e with h1 | ⟨t, h1, h2, h3⟩
  · rcases ht with ht | ht
    · exact .inl (by rw [h1]; exact ht)
    · right
      have hd := h.did hs e
      have hi := h.inv
      generalize d'.c = c', d'.lists = l' at hd
      by_cases ho : ∃ t, o = .send t
      · obtain ⟨t, rfl⟩ := ho
        cases hd with
        | send n => exact fun i a m => ht i a (n.asking.sub i a m)
      · obtain ⟨_, _, _, _, g, k⟩ := hd.tends hi fun t e => ho ⟨t, e⟩
        intro i a m
        rcases k with k | ⟨t, ho, k⟩
        · exact ht i a (k i a m)
        · rcases g.ttl i a m with m | m
          · exact ht i a m
          · have := hT t ho
            rw [k] at m
            omega
  · right
    intro i a m
    have := h3 i a m
    have := hT t h1
    omega

theorem Later.tidy {env : Env} {h : List Call} {d d' : D Ptrs} {T T' : Nat} (n : Later env d T h d' T') (hr : Reach env d)
    (ht : Tidy T d.c) : Tidy T d'.c := by
  induction n with
  | nil => exact ht
  | @snoc h d1 d' o a T1 T' n hs e hT hle ih =>
    refine (n.calls.reach' hr).tidy hs e (fun t ho => ?_) ih
    rw [ho] at hT
    have hT : T' = t.sec := hT
    have := n.le
    omega

theorem Timed.tidy {env : Env} {h : List Call} {d : D Ptrs} {T : Nat} (n : Timed env h d T) : Tidy T d.c := by
  obtain ⟨cls, frame, now, h0, n⟩ := n
  left
  induction n with
  | nil => exact Nat.le_refl _
  | @snoc h d1 d' o a T1 T' n hs e hT hle ih =>
    rcases (n.calls.reach' (.new ..)).exp hs e with h1 | ⟨t, h1, h2, _⟩
    · omega
    · rw [h1] at hT
      have hT : T' = t.sec := hT
      omega

/-- C23: and they do go away.  A record whose time has passed is no longer in the cache when
`mdnsd_out` finds nothing to send more than a day later. -/
theorem C23_gone_after_a_day {env : Env} {d d1 d2 : D Ptrs} {pre post : List Call} {T T1 : Nat} (h : Timed env pre d T)
    (n : Later env d T post d1 T1) {now : TV} {m : Out} {to : Addr} (hs : OpSafe env d1.c d1.q.walk (.send now))
    (_hT : T1 ≤ now.sec) (hday : T + 86400 < now.sec) (hsd : d1.c.shutdown = false)
    (e : Mdns.step env (.send now) d1 = .ok (.sent 0 m to, d2)) :
    ∀ host type, ∀ b ∈ d2.c.listed host type, T < b.ttl := by
  have hr1 := n.calls.reach' h.reach
  obtain ⟨_, _, hsub, _, _, _, hall⟩ := C23_expiry_partial hr1 hs e
  intro host type b mb
  rcases n.tidy h.reach h.tidy with h1 | h1
  · have := hall (.inl ⟨rfl, hsd⟩) (by simp only [gcInterval] at h1; omega) host type b mb
    have := n.le
    omega
  · have := (hsub host type).1.subset mb
    rw [listed_eq, List.mem_filter] at this
    exact h1 _ b this.1

/-! ### Concrete cases -/

namespace Sample

/-- Two records are cached, of which only the second one lasts for more than a day. -/
def heardLong (ops : List Op) : List Op := [.query (nm 97) 12 (some 7),
  .recv (at_ 101) { ptrMsg 10 with an := [ptrTo 98 1 100, ptrTo 99 1 1000000] } other] ++ ops

/-- What `mdnsd_out` returns, and the state after it. -/
def sendAt (now : TV) (d : D Ptrs) : Option (Nat × Out × Addr × D Ptrs) :=
  match Mdns.step quiet (.send now) d with
  | .ok (.sent ret m to, d') => some (ret, m, to, d')
  | _ => none

theorem send_of {d : D Ptrs} {now : TV} {p : Nat × Out × Addr × D Ptrs} (h : sendAt now d = some p) :
    Mdns.step quiet (.send now) d = .ok (.sent p.1 p.2.1 p.2.2.1, p.2.2.2) := by
  unfold sendAt at h
  split at h
  · next e => cases h; exact e
  · cases h

theorem any_some {α : Type} {o : Option α} {f : α → Bool} (h : o.any f = true) : ∃ p, o = some p ∧ f p = true := by
  cases o with
  | none => cases h
  | some p => exact ⟨p, rfl, h⟩

/-- C23: a day later the first one is reported and removed. -/
example : ∃ d d' m to, Reach quiet d ∧ OpSafe quiet d.c d.q.walk (.send (at_ 90000)) ∧
    Mdns.step quiet (.send (at_ 90000)) d = .ok (.sent 1 m to, d') ∧ m.asks (nm 97) 12 = true ∧ d.c.expireall < 90000 ∧
    callback d.c.log (nm 97) 12 = some 7 ∧ Event.unregistered (nm 97) 255 ∉ d.c.log ∧ quiet.KeepOnExpiry ∧
    (d.c.listed (nm 97) 12).map (fun b => (b.rdname, b.ttl)) = [(some (nm 99), 500109), (some (nm 98), 159)] ∧
    (d'.c.listed (nm 97) 12).map (fun b => (b.rdname, b.ttl)) = [(some (nm 99), 500109)] := by
  have hr : Reach quiet (trace quiet (heardLong []) fresh).2 := (hist_of (by decide +kernel)).reach
  have h : ∃ p, sendAt (at_ 90000) (trace quiet (heardLong []) fresh).2 = some p ∧ p.1 = 1 ∧
      p.2.1.asks (nm 97) 12 = true ∧
      (p.2.2.2.c.listed (nm 97) 12).map (fun b => (b.rdname, b.ttl)) = [(some (nm 99), 500109)] := by
    refine ⟨(sendAt (at_ 90000) (trace quiet (heardLong []) fresh).2).get (by decide +kernel), by simp, ?_, ?_, ?_⟩ <;>
      decide +kernel
  obtain ⟨p, h1, h2, h3, h4⟩ := h
  have e := send_of h1
  rw [h2] at e
  exact ⟨_, _, _, _, hr, .inl quiet_keeps, e, h3, by decide +kernel, by decide +kernel, by decide +kernel, quiet_keeps,
    by decide +kernel, h4⟩

/-- The clock after some calls, if it is not set back. -/
def rising : Nat → List Op → Option Nat
  | T, [] => some T
  | T, o :: rest => match o.clock with
    | some t => if T ≤ t.sec then rising t.sec rest else none
    | none => rising T rest

theorem later_trace : ∀ (ops : List Op) (T : Nat) (d0 d : D Ptrs) (T0 T' : Nat) (h0 : List Call), Later quiet d0 T0 h0 d T →
    safeRunB quiet d ops = true → rising T ops = some T' →
    Later quiet d0 T0 (h0 ++ (trace quiet ops d).1) (trace quiet ops d).2 T'
  | [], T, d0, d, T0, T', h0, n, _, hp => by
    cases hp
    simpa [trace] using n
  | o :: ops, T, d0, d, T0, T', h0, n, hb, hp => by
    unfold safeRunB at hb
    rw [Bool.and_eq_true] at hb
    unfold trace
    cases e : Mdns.step quiet o d with
    | ok p =>
      have h2 := hb.2
      rw [e] at h2
      unfold rising at hp
      cases ho : o.clock with
      | some t =>
        rw [ho] at hp
        simp only at hp
        split at hp
        · next hle =>
          have := later_trace ops t.sec d0 p.2 T0 T' _ (Later.snoc n (opSafeB_sound quiet_keeps hb.1) e (T' := t.sec)
            (by rw [ho]) hle) h2 hp
          simpa using this
        · cases hp
      | none =>
        rw [ho] at hp
        have := later_trace ops T d0 p.2 T0 T' _ (Later.snoc n (opSafeB_sound quiet_keeps hb.1) e (T' := T)
          (by rw [ho]) (Nat.le_refl _)) h2 hp
        simpa using this
    | ub => rw [e] at hb; cases hb.2
    | hang => rw [e] at hb; cases hb.2

/-- C23: no query is registered; between the reception and the call of `mdnsd_out` there was another
one. -/
example : ∃ pre post d d1 d2 m to, Timed quiet pre d 200 ∧ Later quiet d 200 post d1 300 ∧
    OpSafe quiet d1.c d1.q.walk (.send (at_ 90000)) ∧ d1.c.shutdown = false ∧
    Mdns.step quiet (.send (at_ 90000)) d1 = .ok (.sent 0 m to, d2) ∧
    (d1.c.listed (nm 97) 12).map (·.ttl) = [500109, 159] ∧ (d2.c.listed (nm 97) 12).map (·.ttl) = [500109] := by
  have n1 := later_trace [.recv (at_ 101) { ptrMsg 10 with an := [ptrTo 98 1 100, ptrTo 99 1 1000000] } other, .send (at_ 200)]
    100 fresh fresh 100 200 [] .nil (by decide +kernel) (by decide)
  generalize hd : (trace quiet [.recv (at_ 101) { ptrMsg 10 with an := [ptrTo 98 1 100, ptrTo 99 1 1000000] } other,
    .send (at_ 200)] fresh).2 = d at n1
  have n2 := later_trace [.send (at_ 300)] 200 d d 200 300 [] .nil (by subst hd; decide +kernel) (by decide)
  obtain ⟨p, h1, h2⟩ := any_some (o := sendAt (at_ 90000) (trace quiet [.send (at_ 300)] d).2)
    (f := fun p => decide (p.1 = 0 ∧ (p.2.2.2.c.listed (nm 97) 12).map (·.ttl) = [500109])) (by subst hd; decide +kernel)
  obtain ⟨h2, h3⟩ := of_decide_eq_true h2
  have e := send_of h1
  rw [h2] at e
  exact ⟨_, _, d, _, _, _, _, ⟨1, 1500, at_ 100, by decide, n1⟩, n2, .inl quiet_keeps, by subst hd; decide +kernel, e,
    by subst hd; decide +kernel, h3⟩

end Sample

open Sample in
/-- C23: a query for PTR records is registered and a record expires, but this is not reported,
because there was a query for records of any type that was ended: when that query was registered it
took over the record, and when it was ended nobody got it back (`libmdnsd/mdnsd.c:398-399`). -/
theorem C23_report_counterexample : ∃ d d' ret m to evs, Reach quiet d ∧ OpSafe quiet d.c d.q.walk (.send (at_ 90000)) ∧
    Mdns.step quiet (.send (at_ 90000)) d = .ok (.sent ret m to, d') ∧ callback d.c.log (nm 97) 12 = some 7 ∧
    (d.c.listed (nm 97) 12).length = 2 ∧ (d'.c.listed (nm 97) 12).length = 1 ∧
    d'.c.log = d.c.log ++ evs ∧ answersOf evs = [] := by
  have hr : Reach quiet (trace quiet (heardLong [.query (nm 97) 255 (some 8), .query (nm 97) 255 none]) fresh).2 :=
    (hist_of (by decide +kernel)).reach
  have h : ∃ p, sendAt (at_ 90000) (trace quiet (heardLong [.query (nm 97) 255 (some 8), .query (nm 97) 255 none]) fresh).2 = some p ∧
      (p.2.2.2.c.listed (nm 97) 12).length = 1 ∧
      p.2.2.2.c.log = (trace quiet (heardLong [.query (nm 97) 255 (some 8), .query (nm 97) 255 none]) fresh).2.c.log ++ [] := by
    refine ⟨(sendAt (at_ 90000) (trace quiet (heardLong [.query (nm 97) 255 (some 8), .query (nm 97) 255 none]) fresh).2).get
      (by decide +kernel), by simp, ?_, ?_⟩ <;> decide +kernel
  obtain ⟨p, h1, h2, h3⟩ := h
  exact ⟨_, _, _, _, _, [], hr, .inl quiet_keeps, send_of h1, by decide +kernel, by decide +kernel, h2, h3, rfl⟩

end Mdns
