import Verif.Props.RoundTrip
import Verif.Props.Packets
import Verif.Lemmas.Packed
import Verif.Lemmas.Hearing

/-!
# C55: a published record is discovered

From the records of one daemon through the packet and the parser to the callbacks of another
daemon.
-/

namespace Mdns

open Spec

/-! ### Spec: records that can be sent, and as the other side sees them -/

/-- The record has data that suits its type. -/
inductive Typed (top : Bytes) (a : Answer) : Prop
  | v4 (t : a.type = 1) (n : a.rdname = none) (d : a.rdata = none) (h : a.ip ≠ ip4Zero)
  | v6 (t : a.type = 28) (n : a.rdname = none) (d : a.rdata = none) (z : a.ip = ip4Zero) (h : a.ip6 ≠ ip6Zero)
  | name (n : Bytes) (t : a.type = 2 ∨ a.type = 5 ∨ a.type = 12) (h : a.rdname = some n) (g : GoodName top n)
  | srv (n : Bytes) (t : a.type = 33) (h : a.rdname = some n) (g : GoodName top n) (p : a.priority < 65536)
      (w : a.weight < 65536) (o : a.port < 65536)
  | raw (b : Bytes) (t : a.type ≠ 1 ∧ a.type ≠ 28 ∧ a.type ≠ 2 ∧ a.type ≠ 5 ∧ a.type ≠ 12 ∧ a.type ≠ 33)
      (n : a.rdname = none) (d : a.rdata = some b)

/-- A record that can be sent: names below the common top label, numbers in the range of the
fields of the packet, data of its type. -/
structure Publishable (top : Bytes) (a : Answer) : Prop where
  name : GoodName top a.name
  type : a.type < 65536
  ttl : a.ttl < 4294967296
  data : Typed top a

/-- The record with all names in canonical form, with a trailing dot. -/
def Answer.dotted (a : Answer) : Answer := { a with name := canon a.name, rdname := a.rdname.map canon }

/-! ### The packet -/

/-- The data of a record. -/
def Answer.data (a : Answer) : RData :=
  if a.type = 33 then .srv a.priority a.weight a.port (a.rdname.getD [])
  else match a.rdname, a.rdata with
    | some n, _ => .name n
    | none, some b => .raw b
    | none, none => if a.ip ≠ ip4Zero then .a a.ip else .aaaa a.ip6

/-- A record in a packet. -/
def Rec.spec (x : Rec) (cls : Nat) : RSpec := ⟨x.rr.name, x.rr.type, x.cls cls, x.rr.ttl, x.rr.data⟩

theorem Typed.copy {top : Bytes} {a : Answer} (h : Typed top a) : aCopy a = [.b a.data.op] := by
  unfold aCopy Answer.data
  by_cases hs : a.type = 33
  · cases h with
    | srv n t h => simp [t, h, RData.op]
    | v4 t | v6 t | name _ t | raw _ t => omega
  · rw [if_neg hs, if_neg hs]
    cases h with
    | v4 t n d h => simp [n, d, h, RData.op]
    | v6 t n d z h => simp [n, d, h, z, RData.op]
    | name n t h => simp [h, RData.op]
    | srv n t h => exact absurd t hs
    | raw b t n d => simp [n, d, RData.op]

theorem Publishable.ok {top : Bytes} {x : Rec} (h : Publishable top x.rr) {cls : Nat} (hc : cls < 32768) :
    (x.spec cls).Ok top where
  name := h.name
  type := h.type
  cls := by unfold Rec.spec Rec.cls; simp only; split <;> omega
  ttl := h.ttl
  fits := by
    show (x.rr.data).Fits x.rr.type
    unfold Answer.data
    cases h.data with
    | v4 t n d h => rw [if_neg (by omega), n, d]; simp [h, RData.Fits, t]
    | v6 t n d z h => rw [if_neg (by omega), n, d]; simp [z, RData.Fits, t]
    | name n t h => rw [if_neg (by omega), h]; exact t
    | srv n t h _ p w o => rw [if_pos t, h]; exact ⟨t, p, w, o⟩
    | raw b t n d => rw [if_neg (by omega), n, d]; exact t
  names := by
    show ∀ n ∈ (x.rr.data).names, _
    unfold Answer.data
    cases h.data with
    | v4 t n d h => rw [if_neg (by omega), n, d]; simp [h, RData.names]
    | v6 t n d z h => rw [if_neg (by omega), n, d]; simp [z, RData.names]
    | name n t h g => rw [if_neg (by omega), h]; simpa [RData.names] using g
    | srv n t h g p w o => rw [if_pos t, h]; simpa [RData.names] using g
    | raw b t n d => rw [if_neg (by omega), n, d]; simp [RData.names]

/-- What is received is what was published. -/
theorem carries_spec {top : Bytes} {x : Rec} (h : Publishable top x.rr) (cls : Nat) (b : Answer) :
    carries (x.spec cls).seen b = true ↔ SameRec b x.rr.dotted := by
  unfold carries SameRec RSpec.seen Rec.spec sameData Answer.dotted Answer.data
  simp only
  by_cases hn : b.name = canon x.rr.name <;> by_cases ht : b.type = x.rr.type <;>
    simp only [hn, ht, beq_self_eq_true, Bool.true_and, Bool.false_and, true_and, false_and, beq_eq_false_iff_ne.mpr,
      ne_eq, not_false_eq_true, Bool.false_eq_true]
  have hv4 : ∀ ip : Ip4, toVec 4 ip.toList = ip := by
    intro ip; unfold toVec; ext i hi; simp
  have hv6 : ∀ ip : Ip6, toVec 16 ip.toList = ip := by
    intro ip; unfold toVec; ext i hi; simp
  cases h.data with
  | v4 t n d h => rw [t]; simp [n, d, h, RData.known, hv4]
  | v6 t n d z h => rw [t]; simp [n, d, z, RData.known, hv6]
  | name n t h => rcases t with t | t | t <;> rw [t] <;> simp [h, RData.known]
  | srv n t h => rw [t]; simp [h, RData.known, and_assoc]
  | raw b t n d =>
    rw [if_neg t.2.2.2.2.2]
    simp only [n, d, RData.known, RData.rdata]
    split <;> simp_all

/-- The records with these numbers. -/
def Core.specs (c : Core) (rs : List Nat) : List RSpec := rs.filterMap fun r => (c.recs r).map (·.spec c.cls)

theorem Core.mem_specs {c : Core} {rs : List Nat} {s : RSpec} :
    s ∈ c.specs rs ↔ ∃ r x, r ∈ rs ∧ c.recs r = some x ∧ s = x.spec c.cls := by
  unfold Core.specs
  rw [List.mem_filterMap]
  constructor
  · rintro ⟨r, m, h⟩
    obtain ⟨x, hx, rfl⟩ := Option.map_eq_some_iff.mp h
    exact ⟨r, x, m, hx, rfl⟩
  · rintro ⟨r, x, m, hx, rfl⟩
    exact ⟨r, m, by rw [hx]; rfl⟩

theorem Core.specs_ops {c : Core} {top : Bytes} (s : Section) : ∀ (rs : List Nat),
    (∀ r ∈ rs, ∃ x, c.recs r = some x ∧ Publishable top x.rr) →
    (rs.map fun r => (s, r)).flatMap c.recOps = ((c.specs rs).flatMap (RSpec.ops s)).map .b
  | [], _ => rfl
  | r :: rs, h => by
    obtain ⟨x, hx, hp⟩ := h r (by simp)
    have ih := specs_ops s rs (fun r' m => h r' (by simp [m]))
    have e : c.specs (r :: rs) = x.spec c.cls :: c.specs rs := by
      unfold Core.specs
      rw [List.filterMap_cons, hx]
      rfl
    rw [List.map_cons, List.flatMap_cons, ih, e, List.flatMap_cons, List.map_append]
    congr 1
    unfold Core.recOps rrOps
    rw [hx]
    simp only
    rw [hp.data.copy]
    rfl

/-- The response with these answers and additional records. -/
def Core.response (c : Core) (as xs : List Nat) : MSpec :=
  ⟨0, { qr := true, aa := true }, [], c.specs as, [], c.specs xs⟩

theorem foldl_b (ops : List BOp) (m : Builder) : (ops.map MOp.b).foldl mstep m = brun m ops := by
  induction ops generalizing m with
  | nil => rfl
  | cons o ops ih => rw [List.map_cons, List.foldl_cons, ih]; rfl

/-! ### The memory the reader needs -/

theorem NB.two {σ : Option (List Bytes)} {nb : Bytes} {ls : List Bytes} (h : NB σ nb ls) (hl : ls ≠ []) : 2 ≤ nb.length := by
  cases σ with
  | none =>
    rw [show nb = encLabels ls ++ [0] from h]
    cases ls with
    | nil => exact absurd rfl hl
    | cons l ls => rw [encLabels_cons]; simp; omega
  | some f =>
    obtain ⟨ls1, ls2, a, _, _, _, e⟩ := h
    rw [e]
    simp [ptrBytes]

theorem GoodName.ne {top n : Bytes} (h : GoodName top n) : labelsOf n ≠ [] := by
  obtain ⟨_, a, e, _⟩ := h
  rw [e]; simp

theorem GoodName.cost {top n : Bytes} (h : GoodName top n) : nameCost n ≤ 256 := by
  unfold nameCost canon
  have := textOf_labelsOf_length n h.1
  omega

theorem RsBytes.cost {top : Bytes} {σ σ' : Option (List Bytes)} {rs : List RSpec} {bs : Bytes} (h : RsBytes σ rs bs σ')
    (ho : ∀ r ∈ rs, r.Ok top) : 64 * rs.length + (rs.map RSpec.cost).sum ≤ 42 * bs.length := by
  induction h with
  | nil => simp
  | cons σ r rs nb db bs σ' hn hd _ ih =>
    have hr := ho r (by simp)
    have ih := ih (fun r' m => ho r' (by simp [m]))
    have h1 := hn.two hr.name.ne
    have h2 := hr.name.cost
    have h3 : r.data.cost ≤ 42 * db.length + 42 * 10 - (64 + 256) := by
      have hg := hr.names
      generalize r.data = dt at hd hg
      cases hd with
      | a ip => simp [RData.cost, putShort]
      | aaaa ip => simp [RData.cost, putShort]
      | name n nb hn =>
        have hg : GoodName top n := hg n (by simp_all [RData.names])
        have := hn.two hg.ne
        have := hg.cost
        simp [RData.cost, putShort]
        omega
      | srv p w o n nb hn =>
        have hg : GoodName top n := hg n (by simp_all [RData.names])
        have := hn.two hg.ne
        have := hg.cost
        simp [RData.cost, putShort]
        omega
      | raw d =>
        simp [RData.cost, putShort]
        omega
    have hc : r.cost = nameCost r.name + r.data.cost := rfl
    simp only [List.length_cons, List.map_cons, List.sum_cons, List.length_append, putShort, putLong, List.length_nil]
    omega

/-! ### The packet is read as it was meant -/

/-- The packet of a response for everyone. -/
theorem Packed.response {c : Core} {m : Out} (h : Packed c m) {top : Bytes} {as xs : List Nat}
    (ht : m.tags = as.map (fun r => (.an, r)) ++ xs.map (fun r => (.ar, r)))
    (hp : ∀ t ∈ m.tags, ∀ x, c.recs t.2 = some x → Publishable top x.rr) (hc : c.cls < 32768) (hf : c.frame ≤ 1300)
    (hl : packetLen m.builder < c.frame + 262) :
    messagePacket m.builder = (c.response as xs).packet ∧ (c.response as xs).Ok top := by
  have hrec : ∀ t ∈ m.tags, ∃ x, c.recs t.2 = some x ∧ Publishable top x.rr := fun t mt => by
    obtain ⟨x, hx⟩ := h.recs t mt
    exact ⟨x, hx, hp t mt x hx⟩
  have ha : ∀ r ∈ as, ∃ x, c.recs r = some x ∧ Publishable top x.rr := fun r mr =>
    hrec (.an, r) (by rw [ht]; simp [mr])
  have hx : ∀ r ∈ xs, ∃ x, c.recs r = some x ∧ Publishable top x.rr := fun r mr =>
    hrec (.ar, r) (by rw [ht]; simp [mr])
  have hops : m.ops = (c.response as xs).ops.map .b := by
    rw [h.ops, ht, List.flatMap_append, Core.specs_ops .an as ha, Core.specs_ops .ar xs hx]
    simp [MSpec.ops, Core.response]
  obtain ⟨i1, i2, i3⟩ := h.id
  have hb : m.builder = brun (start 0 { qr := true, aa := true }) (c.response as xs).ops := by
    unfold Out.builder
    rw [i1, i2, i3, hops, foldl_b]
    rfl
  have hok : ∀ rs : List Nat, (∀ r ∈ rs, ∃ x, c.recs r = some x ∧ Publishable top x.rr) → ∀ s ∈ c.specs rs, s.Ok top := by
    intro rs hrs s ms
    obtain ⟨r, x, mr, hx, rfl⟩ := Core.mem_specs.mp ms
    obtain ⟨x', hx', hp'⟩ := hrs r mr
    rw [hx] at hx'
    cases hx'
    exact hp'.ok hc
  have hraw : (c.response as xs).RawFits := by
    intro pre d post e
    have := h.raw (by omega) (b := d) (pre := pre.map .b) (post := post.map .b) (by rw [hops, e]; simp)
    have e2 := Out.len_ops ⟨0, true, true, pre.map .b, []⟩
    unfold Out.len Out.builder at e2
    rw [foldl_b] at e2
    rw [← e2] at this
    exact this
  refine ⟨by unfold MSpec.packet; rw [hb]; rfl, ?_⟩
  -- what was written
  have hstart : BS top none (start 0 ({ qr := true, aa := true } : Header)).pkt (start 0 ({ qr := true, aa := true } : Header)).labels :=
    .fresh _ (by simp [start])
  have e0 : (c.response as xs).ops = (c.specs as).flatMap (RSpec.ops .an) ++ (c.specs xs).flatMap (RSpec.ops .ar) := by
    simp [MSpec.ops, Core.response]
  obtain ⟨b1, σ1, x1, x2, x3⟩ := rs_BS top .an (c.specs as) none _ hstart (hok as ha) (by
    intro pre d post e
    exact hraw pre d (post ++ (c.specs xs).flatMap (RSpec.ops .ar)) (by rw [e0, e]; simp))
  obtain ⟨b2, σ2, y1, y2, y3⟩ := rs_BS top .ar (c.specs xs) _ _ x3 (hok xs hx) (by
    intro pre d post e
    have := hraw ((c.specs as).flatMap (RSpec.ops .an) ++ pre) d post (by rw [e0, e]; simp)
    unfold packetLen at this
    rw [brun_append] at this
    exact this)
  have hlen : m.builder.pkt.length = 12 + b1.length + b2.length := by
    rw [hb, e0, brun_append, y1, x1]
    simp only [start, List.length_append, List.length_replicate]
  unfold packetLen at hl
  have c1 := x2.cost (hok as ha)
  have c2 := y2.cost (hok xs hx)
  exact {
    id := by show 0 < 65536; decide
    header := ⟨by show 0 < 16; decide, by show 0 < 8; decide, by show 0 < 16; decide⟩
    qd := by intro q hq; cases hq
    an := hok as ha
    ns := by intro q hq; cases hq
    ar := hok xs hx
    packet := by
      have : (c.response as xs).packet = messagePacket m.builder := by unfold MSpec.packet; rw [hb]; rfl
      rw [this]
      unfold messagePacket
      have : (headerBytes m.builder).length = 12 := by simp [headerBytes, putShort, flagBytes]
      simp only [List.length_append, List.length_drop]
      omega
    raw := hraw
    cost := by
      unfold MSpec.cost
      simp only [Core.response, List.length_nil, List.map_nil, List.sum_nil]
      omega }

theorem OutMsg.sections {env : Env} {c : Core} {l : Lists} {ret : Nat} {m : Out} {to : Addr} {c' : Core} {l' : Lists}
    (n : OutMsg env c l ret m to c' l') (hm : c.uanswers = []) (hq : m.qr = true) :
    ∃ as xs : List Nat, m.tags = as.map (fun r => (.an, r)) ++ xs.map (fun r => (.ar, r)) := by
  cases n with
  | unicast h => rw [hm] at h; cases h
  | shutdown h n1 n2 =>
    obtain ⟨as, e⟩ := (n2.answering (n1.answering (.start c l))).split
    exact ⟨as, [], by rw [e]; simp⟩
  | normal h n1 n2 hs n3 =>
    have a := n2.answering (n1.answering (.start c l))
    cases n3 with
    | answers np na =>
      obtain ⟨as, e⟩ := (np.answering a).split
      obtain ⟨xs, e'⟩ := na.tags
      exact ⟨as, xs, by rw [e', e]⟩
    | probes np na hr nb => rw [nb.qr] at hq; cases hq
    | questions np na hr nb _ nq => rw [nq.qr, nb.qr] at hq; cases hq

theorem RSpec.Ok.wf {top : Bytes} {r : RSpec} (h : r.Ok top) : r.seen.WF := by
  obtain ⟨n, t, c, l, d⟩ := r
  have hf := h.fits
  cases d <;> simp only [RData.Fits] at hf <;>
    refine ⟨?_, ?_, ?_, ?_, ?_⟩ <;> simp only [RSpec.seen, RData.known] <;> intros <;> first | omega | simp

/-! ### The theorem -/

/-- C55 (partial): a response, announcement or goodbye that one daemon makes for everyone is read by
another daemon exactly as meant, and its queries are told exactly the published records:

* whatever is told is a record in the packet (names in canonical form), with its lifetime, or the
  end of a record;
* for every record among the answers that was not known before, the callback registered for its
  name and type is told, unless the query ends while the packet is handled.

Assumed are names below a common top label (see `C03_prefix_counterexample`), a frame size up to
1300 (the daemon uses 1000) and a record type other than ANY. Queries of type ANY are not told,
see `C55_any_counterexample`. -/
theorem C55_discovered_partial {envA envB : Env} {a a' d : D Ptrs} (ha : Reach envA a) {now now' : TV} {ret : Nat} {m : Out}
    {to src : Addr} (hs : OpSafe envA a.c a.q.walk (.send now))
    (e : Mdns.step envA (.send now) a = .ok (.sent ret m to, a')) (hto : to.port = 5353) (hq : m.qr = true)
    {top : Bytes} (hc : a.c.cls < 32768) (hf : a.c.frame ≤ 1300)
    (hp : ∀ t ∈ m.tags, ∀ x, a.c.recs t.2 = some x → Publishable top x.rr)
    {b : RBuf} (hb : Holds b (messagePacket m.builder))
    (hd : Reach envB d) (hup : d.c.shutdown = false) (hsrc : Elsewhere envB d.c src) :
    ∃ msg d' evs, messageParse b structCap = .ok msg ∧
      Mdns.step envB (.recv now' msg src) d = .ok (.unit, d') ∧ d'.c.log = d.c.log ++ evs ∧
      (∀ rr ∈ answersOf evs, rr.ttl = 0 ∨ ∃ r x, (Section.an, r) ∈ m.tags ∧ a.c.recs r = some x ∧ x.rr.ttl ≠ 0 ∧
        SameRec rr x.rr.dotted ∧ rr.ttl = now'.sec + x.rr.ttl / 2 + 8) ∧
      ∀ r x, (Section.an, r) ∈ m.tags → a.c.recs r = some x → x.rr.type ≠ 255 → x.rr.ttl ≠ 0 →
        (callback d.c.log (canon x.rr.name) x.rr.type).isSome →
        (∀ rr ∈ d.c.listed (canon x.rr.name) x.rr.type, ¬ SameRec rr x.rr.dotted) →
        Event.unregistered (canon x.rr.name) x.rr.type ∈ evs ∨
        ∃ pre q cb rr post, evs = pre ++ .answer q cb rr :: post ∧
          callback (d.c.log ++ pre) (canon x.rr.name) x.rr.type = some cb ∧ SameRec rr x.rr.dotted ∧ rr.ttl ≠ 0 := by
  cases ha.did hs e with
  | send n =>
    have hu : a.c.uanswers = [] := n.nouni hto ha.uni
    have hpk := n.packed hu hq
    obtain ⟨as, xs, ht⟩ := n.sections hu hq
    have hl := C40_response_partial ha hs e hto hq
    obtain ⟨hpkt, hok⟩ := Packed.response hpk (top := top) ht hp hc hf hl
    rw [hpkt] at hb
    have hparse := C03_build_parse_partial top _ hok b hb
    have han : ∀ r : Resource, r ∈ (a.c.response as xs).seen.an ↔
        ∃ i x, (Section.an, i) ∈ m.tags ∧ a.c.recs i = some x ∧ r = (x.spec a.c.cls).seen := by
      intro r
      show r ∈ (a.c.specs as).map RSpec.seen ↔ _
      rw [List.mem_map]
      constructor
      · rintro ⟨s, ms, rfl⟩
        obtain ⟨i, x, mi, hx, rfl⟩ := Core.mem_specs.mp ms
        exact ⟨i, x, by rw [ht]; simp [mi], hx, rfl⟩
      · rintro ⟨i, x, mi, hx, rfl⟩
        refine ⟨_, Core.mem_specs.mpr ⟨i, x, ?_, hx, rfl⟩, rfl⟩
        rw [ht] at mi
        simpa using mi
    have hresp : Response envB d (a.c.response as xs).seen src := by
      refine ⟨hd, hup, rfl, hsrc, ?_⟩
      intro r mr
      obtain ⟨s, ms, rfl⟩ := List.mem_map.mp (show r ∈ (a.c.specs as).map RSpec.seen from mr)
      exact (hok.an s ms).wf
    obtain ⟨d', evs, e1, e2, e3, e4⟩ := hresp.hears now'
    refine ⟨_, d', evs, hparse, e1, e2, ?_, ?_⟩
    · intro rr mrr
      rcases e3 rr mrr with h | ⟨r, mr, h0, hcar, httl⟩
      · exact .inl h
      · obtain ⟨i, x, mi, hx, rfl⟩ := (han r).mp mr
        exact .inr ⟨i, x, mi, hx, h0, (carries_spec (hp _ mi x hx) _ rr).mp hcar, httl⟩
    · intro i x mi hx ht255 h0 hreg hnew
      have hpx := hp _ mi x hx
      by_cases hun : Event.unregistered (canon x.rr.name) x.rr.type ∈ evs
      · exact .inl hun
      · right
        obtain ⟨pre, q, cb, rr, post, h1, h2, h3⟩ := e4 _ _ ht255 hreg hun _ ((han _).mpr ⟨i, x, mi, hx, rfl⟩) rfl rfl h0 (by
          intro rr mrr
          rw [Bool.eq_false_iff]
          exact fun h => hnew rr mrr ((carries_spec hpx _ rr).mp h))
        exact ⟨pre, q, cb, rr, post, h1, h2, (carries_spec hpx _ rr).mp h3.1, h3.2⟩

/-! ### Example -/

namespace Sample

/-- A pointer and a service, as published. -/
def ptrBA : Answer := { name := nameA, type := 12, ttl := 120, rdname := some nameBA }
def srvBA : Answer := { name := nameBA, type := 33, ttl := 120, rdname := some nameXBA, port := 80 }

def publishing : List Op := [.shared nameA 12 120, .setHost 0 nameBA, .shared nameBA 33 120, .setSrv 1 0 0 80 nameXBA]

/-- The daemon that publishes them, and one that looks for the pointer. -/
def publisher : D Ptrs := (trace quiet publishing (newD 1 1000 (at_ 100))).2
def browser (t : Nat) : D Ptrs := (trace quiet [.query nameA t (some 7)] (newD 1 1000 (at_ 100))).2

theorem ptrBA_ok : Publishable [0x6C, 0x6F, 0x63, 0x61, 0x6C] ptrBA :=
  ⟨goodA, by decide, by decide, .name nameBA (by decide) rfl goodBA⟩

theorem srvBA_ok : Publishable [0x6C, 0x6F, 0x63, 0x61, 0x6C] srvBA :=
  ⟨goodBA, by decide, by decide, .srv nameXBA (by decide) rfl goodXBA (by decide) (by decide) (by decide)⟩

def isAnnouncement (env : Env) (now : TV) (d : D Ptrs) : Bool :=
  match Mdns.step env (.send now) d with
  | .ok (.sent _ m to, _) => to.port == 5353 && m.qr
  | _ => false

/-- C55: the announcement. -/
theorem publisher_sends : ∃ ret m to d', Reach quiet publisher ∧
    OpSafe quiet publisher.c publisher.q.walk (.send (at_ 101)) ∧
    Mdns.step quiet (.send (at_ 101)) publisher = .ok (.sent ret m to, d') ∧ to.port = 5353 ∧ m.qr = true ∧
    m.tags = [(.an, 1), (.an, 0)] ∧
    (∀ t ∈ m.tags, ∀ x, publisher.c.recs t.2 = some x → Publishable [0x6C, 0x6F, 0x63, 0x61, 0x6C] x.rr) ∧
    ∃ x, publisher.c.recs 0 = some x ∧ x.rr = ptrBA := by
  have hr : Reach quiet publisher := reach_of (by decide +kernel)
  obtain ⟨ret, m, to, d', e, hs, ht⟩ := sent_of hr (at_ 101)
  have h : isAnnouncement quiet (at_ 101) publisher = true := by decide +kernel
  unfold isAnnouncement at h
  rw [e] at h
  simp only [Bool.and_eq_true, beq_iff_eq] at h
  have ht : m.tags = [(.an, 1), (.an, 0)] := ht ▸ by decide +kernel
  have h0 : (publisher.c.recs 0).map (·.rr) = some ptrBA := by decide +kernel
  have h1 : (publisher.c.recs 1).map (·.rr) = some srvBA := by decide +kernel
  refine ⟨ret, m, to, d', hr, hs, e, h.1, h.2, ht, ?_, ?_⟩
  · intro t mt x hx
    rw [ht] at mt
    simp only [List.mem_cons, List.not_mem_nil, or_false] at mt
    rcases mt with rfl | rfl
    · rw [hx] at h1; rw [show x.rr = srvBA from Option.some.inj h1]; exact srvBA_ok
    · rw [hx] at h0; rw [show x.rr = ptrBA from Option.some.inj h0]; exact ptrBA_ok
  · obtain ⟨x, hx, e⟩ := Option.map_eq_some_iff.mp h0
    exact ⟨x, hx, e⟩

/-- C55: the other daemon. -/
example : Reach quiet (browser 12) ∧ (browser 12).c.shutdown = false ∧ Elsewhere quiet (browser 12).c other ∧
    callback (browser 12).c.log (canon ptrBA.name) ptrBA.type = some 7 ∧
    ∀ rr ∈ (browser 12).c.listed (canon ptrBA.name) ptrBA.type, ¬ SameRec rr ptrBA.dotted := by
  refine ⟨reach_of (by decide +kernel), by decide +kernel, elsewhere (by decide +kernel), by decide +kernel, ?_⟩
  have : (browser 12).c.listed (canon ptrBA.name) ptrBA.type = [] := by decide +kernel
  rw [this]
  simp

/-- What the callbacks of a browsing daemon are told of the announcement. -/
def hears (t : Nat) : Option (List Answer) :=
  match Mdns.step quiet (.send (at_ 101)) publisher with
  | .ok (.sent _ m _, _) =>
    match messageParse (RBuf.ofBytes recvSize (messagePacket m.builder)) structCap with
    | .ok msg =>
      match Mdns.step quiet (.recv (at_ 101) msg other) (browser t) with
      | .ok (_, d') => some (answersOf d'.c.log)
      | _ => none
    | _ => none
  | _ => none

example : (hears 12).map (·.map fun b => (b.name, b.type, b.rdname)) = some [(nameA, 12, some nameBA)] := by decide +kernel

end Sample

open Sample in
/-- C55 is false for queries of type ANY: the query for "a.local." is not told that the record
arrived (`_q_next` looks for the exact type, `libmdnsd/mdnsd.c:652`), though it is in the cache. -/
theorem C55_any_counterexample :
    callback (browser 255).c.log nameA 255 = some 7 ∧ typeFits 255 ptrBA ∧ hears 255 = some [] :=
  ⟨by decide +kernel, .inr rfl, by decide +kernel⟩

end Mdns
