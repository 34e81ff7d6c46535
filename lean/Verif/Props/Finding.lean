import Verif.Props.Discovery
import Verif.Props.Questions
import Verif.Props.Receiving
import Verif.Props.Records
import Verif.Lemmas.Replies

/-!
# C67: asking for a record finds it

A question of one daemon is read by another daemon as it was meant, the record is put in a
packet for everyone, and the callback is told.
-/

namespace Mdns

open Spec

/-! ### Spec: answers that can be passed on -/

/-- An answer as it is kept: like a record that is published, or an address with the bytes
received. -/
inductive Heard (top : Bytes) (a : Answer) : Prop
  | typed (h : Typed top a)
  | v4 (b : Bytes) (t : a.type = 1) (n : a.rdname = none) (d : a.rdata = some b) (l : b.length = 4) (i : a.ip = toVec 4 b)
  | v6 (b : Bytes) (t : a.type = 28) (n : a.rdname = none) (d : a.rdata = some b) (l : b.length = 16) (i : a.ip6 = toVec 16 b)

/-- The questions of the packet can be sent, and so can the answers known for them: names below the
common top label, numbers in the range of the fields of the packet, data of its type. -/
def Askable (top : Bytes) (c : Core) (m : Out) : Prop :=
  ∀ n t, m.asks n t = true → GoodName top n ∧ t < 65536 ∧
    ∀ a ∈ c.listed n t, a.type = t ∧ a.ttl < 4294967296 ∧ Heard top a

/-! ### The packet -/

/-- The data of an answer that is kept. -/
def Answer.kept (a : Answer) : RData :=
  match a.rdata with
  | none => a.data
  | some b => if a.type = 1 then .a (toVec 4 b) else if a.type = 28 then .aaaa (toVec 16 b) else a.data

theorem toVec_toList {n : Nat} {b : Bytes} (h : b.length = n) : (toVec n b).toList = b := by
  apply List.ext_getElem
  · simp [h]
  · intro i h1 h2
    simp [toVec, h2]

theorem Typed.kept {top : Bytes} {a : Answer} (h : Typed top a) : a.kept = a.data := by
  unfold Answer.kept
  cases h with
  | v4 t n d h => rw [d]
  | v6 t n d h => rw [d]
  | name n t => split; rfl; rw [if_neg (by omega), if_neg (by omega)]
  | srv n t => split; rfl; rw [if_neg (by omega), if_neg (by omega)]
  | raw b t => split; rfl; rw [if_neg (by omega), if_neg (by omega)]

/-- What is written for an answer that is kept. -/
theorem Heard.copy {top : Bytes} {a : Answer} (h : Heard top a) (M : Builder)
    (hl : M.pkt.length + (a.rdata.getD []).length ≤ 4096) : (aCopy a).foldl mstep M = bstep M a.kept.op := by
  cases h with
  | typed h =>
    rw [h.copy, h.kept]
    rfl
  | v4 b t n d l =>
    rw [d, Option.getD_some] at hl
    unfold aCopy Answer.kept
    rw [if_neg (by omega), n, d]
    simp only [t, if_pos, RData.op, List.foldl_cons, List.foldl_nil, mstep, bstep]
    unfold rdataRaw rdataIpv4
    rw [if_neg (by omega), toVec_toList l, l]
  | v6 b t n d l =>
    rw [d, Option.getD_some] at hl
    unfold aCopy Answer.kept
    rw [if_neg (by omega), n, d]
    simp only [t, RData.op, List.foldl_cons, List.foldl_nil, mstep, bstep]
    rw [if_neg (by decide), if_pos trivial]
    unfold rdataRaw
    simp only
    unfold rdataIpv6
    rw [if_neg (by omega), toVec_toList l, l]

/-- A known answer in the packet. -/
def known (cls now : Nat) (n : Bytes) (t : Nat) (a : Answer) : RSpec := ⟨n, t, cls, a.ttl - now, a.kept⟩

theorem Heard.ok {top : Bytes} {a : Answer} (h : Heard top a) {n : Bytes} {t cls now : Nat} (hn : GoodName top n)
    (ht : a.type = t) (h2 : t < 65536) (h3 : a.ttl < 4294967296) (hc : cls < 32768) : (known cls now n t a).Ok top := by
  subst ht
  have key : a.kept.Fits a.type ∧ ∀ n ∈ a.kept.names, GoodName top n := by
    cases h with
    | typed h =>
      rw [h.kept]
      have : Publishable top { a with name := n } := ⟨hn, h2, h3, by
        cases h with
        | v4 t n d h => exact .v4 t n d h
        | v6 t n d z h => exact .v6 t n d z h
        | name n t h g => exact .name n t h g
        | srv n t h g p w o => exact .srv n t h g p w o
        | raw b t n d => exact .raw b t n d⟩
      have ok := Publishable.ok (x := { rr := { a with name := n } }) this hc
      exact ⟨ok.fits, ok.names⟩
    | v4 b t n d l =>
      unfold Answer.kept
      rw [d]
      simp [t, RData.Fits, RData.names]
    | v6 b t n d l =>
      unfold Answer.kept
      rw [d]
      simp [t, RData.Fits, RData.names]
  exact ⟨hn, h2, by show cls < _; omega, by show a.ttl - now < _; omega, key.1, key.2⟩

/-- A known answer is read as it is kept. -/
theorem carries_known {top : Bytes} {a : Answer} (h : Heard top a) (hn : GoodName top a.name) (h2 : a.type < 65536)
    (h3 : a.ttl < 4294967296) (cls now : Nat) (b : Answer) :
    carries (known cls now a.name a.type a).seen b = true ↔ SameRec b a.dotted := by
  cases h with
  | typed h =>
    have := carries_spec (x := { rr := a }) ⟨hn, h2, h3, h⟩ cls b
    unfold known
    rw [h.kept]
    exact this
  | v4 bs t n d l i =>
    unfold carries SameRec RSpec.seen known sameData Answer.dotted Answer.kept
    rw [d]
    by_cases hb : b.name = canon a.name <;> by_cases ht : b.type = 1 <;>
      simp [hb, ht, t, RData.known, toVec_toList l, i]
  | v6 bs t n d l i =>
    unfold carries SameRec RSpec.seen known sameData Answer.dotted Answer.kept
    rw [d]
    by_cases hb : b.name = canon a.name <;> by_cases ht : b.type = 28 <;>
      simp [hb, ht, t, RData.known, toVec_toList l, i]

/-- The known answers of a packet: `S` is the message with the questions, `M` with the answers. -/
def Adds (P : RSpec → Prop) (S M : Builder) : Prop :=
  ∃ ks : List RSpec, (∀ k ∈ ks, P k) ∧ M = brun S (ks.flatMap (RSpec.ops .an)) ∧
    ∀ pre d post, ks.flatMap (RSpec.ops .an) = pre ++ BOp.raw d :: post → (brun S pre).pkt.length + d.length ≤ 4096

theorem Adds.snoc {P : RSpec → Prop} {S M : Builder} (h : Adds P S M) {k : RSpec} (hk : P k)
    (hl : ∀ d, k.data = .raw d → M.pkt.length + d.length + 264 ≤ 4096) : Adds P S (brun M (RSpec.ops .an k)) := by
  obtain ⟨ks, h1, rfl, h3⟩ := h
  refine ⟨ks ++ [k], ?_, ?_, ?_⟩
  · intro k' m
    rcases List.mem_append.mp m with m | m
    · exact h1 k' m
    · rw [List.mem_singleton.mp m]; exact hk
  · rw [List.flatMap_append, brun_append]
    simp
  · intro pre d post e
    rw [List.flatMap_append] at e
    simp only [List.flatMap_cons, List.flatMap_nil, List.append_nil] at e
    rcases List.append_eq_append_iff.mp e with ⟨a, e1, e2⟩ | ⟨a, e1, e2⟩
    · unfold RSpec.ops at e2
      cases a with
      | nil => cases e2
      | cons o a =>
        injection e2 with e3 e4
        subst e3
        cases a with
        | nil =>
          injection e4 with e5 _
          have hd : k.data = .raw d := by
            cases hk : k.data <;> rw [hk] at e5 <;> simp only [RData.op] at e5 <;> cases e5
            rfl
          have := hl d hd
          rw [e1, brun_append]
          have h4 := (mstep_len (brun S (ks.flatMap (RSpec.ops .an))) (.b (.rr .an k.name k.type k.cls k.ttl))).2.2
          simp only [MOp.most, maxCost, mstep] at h4
          rw [show brun (brun S (ks.flatMap (RSpec.ops .an))) [.rr .an k.name k.type k.cls k.ttl] =
            bstep (brun S (ks.flatMap (RSpec.ops .an))) (.rr .an k.name k.type k.cls k.ttl) from rfl]
          omega
        | cons o2 a =>
          injection e4 with _ e6
          cases a <;> cases e6
    · cases a with
      | nil =>
        simp only [List.nil_append] at e2
        unfold RSpec.ops at e2
        injection e2 with e2 _
        cases e2
      | cons o a =>
        rw [List.cons_append] at e2
        injection e2 with e2 e3
        subst e2
        exact h3 pre d a e1

theorem knownLoop_adds {P : RSpec → Prop} {top : Bytes} {S : Builder} {c : Core} (hf : c.frame ≤ 1300) (x : Query) :
    ∀ (es : List Cached) (m : Out), Adds P S m.builder →
      (∀ e ∈ es, e.rr.is x.name x.type = true → c.now.sec + 8 < e.rr.ttl →
        Heard top e.rr ∧ P (known c.cls c.now.sec x.name x.type e.rr)) →
      Adds P S (knownLoop c x es m).builder
  | [], m, h, _ => h
  | e :: es, m, h, H => by
    unfold knownLoop
    split
    · rename_i hi
      split
      · rename_i hl
        obtain ⟨hh, hp⟩ := H e (by simp) hi hl.1
        refine knownLoop_adds hf x es _ ?_ fun e' m' => H e' (by simp [m'])
        have hlen : m.builder.pkt.length + rrLen e.rr < c.frame := hl.2
        have hr : (e.rr.rdata.getD []).length ≤ rrLen e.rr := by unfold rrLen; omega
        have h4 := (mstep_len m.builder (.b (.rr .an x.name x.type c.cls (e.rr.ttl - c.now.sec)))).2.2
        simp only [MOp.most, maxCost, mstep] at h4
        rw [Out.add_builder, List.foldl_cons, Heard.copy hh _ (by simp only [mstep]; omega)]
        refine h.snoc hp ?_
        intro d hd
        have hd : e.rr.kept = .raw d := hd
        have : e.rr.rdata = some d := by
          unfold Answer.kept at hd
          cases hrd : e.rr.rdata with
          | none =>
            rw [hrd] at hd
            simp only [Answer.data, hrd] at hd
            (repeat' split at hd) <;> simp_all
          | some b =>
            rw [hrd] at hd
            simp only [Answer.data, hrd] at hd
            (repeat' split at hd) <;> simp_all
        rw [this, Option.getD_some] at hr
        omega
      · exact h
    · exact knownLoop_adds hf x es m h fun e' m' => H e' (by simp [m'])

theorem Upd.adds {env : Env} {suf : List Nat} {s t : QSt} (n : Upd env suf s t) {P : RSpec → Prop} {top : Bytes}
    {S : Builder} (hf : s.c.frame ≤ 1300) (hd : suf.Nodup) (hl : ∀ q ∈ suf, ∃ x, s.c.qs q = some x)
    (H : ∀ q ∈ suf, ∀ x, s.c.qs q = some x → s.c.asksNow x → ∀ a ∈ s.c.rrs (bucket x.name lprime),
      a.is x.name x.type = true → s.c.now.sec + 8 < a.ttl →
      Heard top a ∧ P (known s.c.cls s.c.now.sec x.name x.type a))
    (h : Adds P S s.m.builder) : Adds P S t.m.builder := by
  induction n with
  | done => exact h
  | @idle q _ s _ x _ hx hi _ ih =>
    exact ih hf (List.nodup_cons.mp hd).2 (fun q m => hl q (by simp [m])) (fun q m => H q (by simp [m])) h
  | @again p0 _ s _ y c1 _ cb h0 hy hi h3 he hc hn hx1 n ih =>
    have kept : ∀ q, q ≠ p0 → ∀ x, s.c.qs q = some x → ∃ cb, c1.qs q = some { x with cb := cb } := by
      intro q _ x hx
      rcases hc.kept q x hx with h | ⟨_, m⟩
      · exact h
      · exact absurd m (hn _ _)
    have hnow : c1.now = s.c.now := rest_now hc.rest
    have hcls : c1.cls = s.c.cls := (congrArg Core.cls hc.rest : c1.rest.cls = s.c.rest.cls)
    have hfr : c1.frame = s.c.frame := (congrArg Core.frame hc.rest : c1.rest.frame = s.c.rest.frame)
    refine ih (by show c1.frame ≤ _; omega) (List.nodup_cons.mp hd).2 (fun q m => ?_) (fun q mq x hx ha a ma hi ht => ?_) h
    · have hp : q ≠ p0 := fun e => (List.nodup_cons.mp hd).1 (e ▸ m)
      obtain ⟨x, hx⟩ := hl q (by simp [m])
      obtain ⟨cb, h1⟩ := kept q hp x hx
      exact ⟨_, by
        show upd c1.qs p0 _ q = _
        rw [upd_other _ _ _ _ hp, h1]⟩
    · have hp : q ≠ p0 := fun e => (List.nodup_cons.mp hd).1 (e ▸ mq)
      have hx : upd c1.qs p0 _ q = some x := hx
      rw [upd_other _ _ _ _ hp] at hx
      obtain ⟨x0, hx0⟩ := hl q (by simp [mq])
      obtain ⟨cb', h1⟩ := kept q hp x0 hx0
      rw [hx] at h1
      cases h1
      have ha : Core.asksNow c1 _ := ha
      unfold Core.asksNow at ha
      rw [hnow] at ha
      have ht : c1.now.sec + 8 < a.ttl := ht
      rw [hnow] at ht
      have := H q (by simp [mq]) x0 hx0 ha a (h0.cExpire_sub he _ a ma) hi ht
      show Heard top a ∧ P (known c1.cls c1.now.sec x0.name x0.type a)
      rw [hnow, hcls]
      exact this
  | @ask p0 _ s _ y h0 hy hi h3 n ih =>
    refine ih hf (List.nodup_cons.mp hd).2 (fun q m => ?_) (fun q mq x hx => ?_) ?_
    · have hp : q ≠ p0 := fun e => (List.nodup_cons.mp hd).1 (e ▸ m)
      obtain ⟨x, hx⟩ := hl q (by simp [m])
      exact ⟨x, by
        show upd s.c.qs p0 _ q = _
        rw [upd_other _ _ _ _ hp, hx]⟩
    · have hp : q ≠ p0 := fun e => (List.nodup_cons.mp hd).1 (e ▸ mq)
      have hx : upd s.c.qs p0 _ q = some x := hx
      rw [upd_other _ _ _ _ hp] at hx
      exact H q (by simp [mq]) x hx
    · refine knownLoop_adds (c := s.c.askedQ p0 y) (top := top) hf y _ _ h fun e me hie hte => ?_
      exact H p0 (by simp) y hy ⟨hi, h3⟩ e.rr (List.mem_map_of_mem me) hie hte

/-! ### The memory the reader needs -/

theorem QsBytes.cost {top : Bytes} {σ σ' : Option (List Bytes)} {qs : List QSpec} {bs : Bytes} (h : QsBytes σ qs bs σ')
    (ho : ∀ q ∈ qs, q.Ok top) : 16 * qs.length + (qs.map fun q => nameCost q.name).sum ≤ 46 * bs.length := by
  induction h with
  | nil => simp
  | cons σ q qs nb bs σ' hn _ ih =>
    have hq := ho q (by simp)
    have ih := ih (fun r' m => ho r' (by simp [m]))
    have h1 := hn.two hq.name.ne
    have h2 := hq.name.cost
    simp only [List.length_cons, List.map_cons, List.sum_cons, List.length_append, putShort, List.length_nil]
    omega

/-! ### The packet is read as it was meant -/

theorem Out.asks_other {m : Out} {n n' : Bytes} {t t' : Nat} (h : m.asks n t = true)
    (h' : ∃ q ∈ questions m.ops, q.1 = n' ∧ q.2.1 = t') : m.asks n' t' = true := by
  unfold Out.asks at h ⊢
  rw [Bool.and_eq_true] at h ⊢
  obtain ⟨q, mq, e⟩ := h'
  exact ⟨h.1, List.any_eq_true.mpr ⟨q, mq, decide_eq_true e⟩⟩

/-- A packet with questions, as the other side reads it. -/
theorem Reach.question {env : Env} {d d' : D Ptrs} (h : Reach env d) {now : TV} {ret : Nat} {m : Out} {to : Addr}
    (hs : OpSafe env d.c d.q.walk (.send now)) (e : Mdns.step env (.send now) d = .ok (.sent ret m to, d'))
    {host : Bytes} {type : Nat} (ha : m.asks host type = true) {top : Bytes} (hq : Askable top d.c m)
    (hc : d.c.cls < 32768) (hf : d.c.frame ≤ 1300) (hl : m.len ≤ 1400) :
    ∃ (qs : List QSpec) (ks : List RSpec), messagePacket m.builder = (⟨0, {}, qs, ks, [], []⟩ : MSpec).packet ∧
      (⟨0, {}, qs, ks, [], []⟩ : MSpec).Ok top ∧ (⟨host, type, d.c.cls⟩ : QSpec) ∈ qs ∧
      (∀ q ∈ qs, m.asks q.name q.type = true) ∧
      ∀ k ∈ ks, ∃ t, ∃ a ∈ d.c.listed a.name t, k = known d.c.cls now.sec a.name a.type a ∧ Heard top a ∧
        GoodName top a.name ∧ a.type < 65536 ∧ a.ttl < 4294967296 ∧ now.sec + 8 < a.ttl := by
  obtain ⟨c2, t, e2, rfl, n⟩ := h.asking hs e ha
  have st := Still.recfree e2
  have hi : CInv c2 := n.start
  have hnow : c2.now = now := st.now
  have hcls : c2.cls = d.c.cls := (congrArg Core.cls e2 : c2.recfree.cls = _)
  have hfr : c2.frame = d.c.frame := (congrArg Core.frame e2 : c2.recfree.frame = _)
  have hqs : questions t.m.ops = (c2.dueQs c2.qlist).map fun x => (x.name, x.type, c2.cls) := by
    rw [n.questions]
    show questions ([] ++ _) = _
    rw [List.nil_append, questions_due]
  have hdue : ∀ x ∈ c2.dueQs c2.qlist, t.m.asks x.name x.type = true := fun x mx =>
    Out.asks_other ha ⟨_, by rw [hqs]; exact List.mem_map_of_mem mx, rfl, rfl⟩
  have hhost : ∃ x ∈ c2.dueQs c2.qlist, x.name = host ∧ x.type = type := by
    unfold Out.asks at ha
    rw [Bool.and_eq_true, hqs, List.any_eq_true] at ha
    obtain ⟨_, m1, h1⟩ := ha.2
    obtain ⟨x, mx, rfl⟩ := List.mem_map.mp m1
    exact ⟨x, mx, of_decide_eq_true h1⟩
  let qs : List QSpec := (c2.dueQs c2.qlist).map fun x => ⟨x.name, x.type, d.c.cls⟩
  have hqsok : ∀ q ∈ qs, q.Ok top := by
    intro q mq
    obtain ⟨x, mx, rfl⟩ := List.mem_map.mp mq
    obtain ⟨h1, h2, _⟩ := hq _ _ (hdue x mx)
    exact ⟨h1, h2, by show d.c.cls < _; omega⟩
  let P : RSpec → Prop := fun k => ∃ t, ∃ a ∈ d.c.listed a.name t, k = known d.c.cls now.sec a.name a.type a ∧ Heard top a ∧
        GoodName top a.name ∧ a.type < 65536 ∧ a.ttl < 4294967296 ∧ now.sec + 8 < a.ttl
  have hS : (blankQ.add ((c2.dueQs c2.qlist).map c2.questionOf)).builder = brun (start 0 {}) (qs.map QSpec.op) := by
    rw [Out.add_builder, ← foldl_b]
    congr 1
    simp only [qs, List.map_map]
    refine List.map_congr_left fun x _ => ?_
    show Core.questionOf c2 x = .b (.qd x.name x.type d.c.cls)
    unfold Core.questionOf
    rw [hcls]
  have hadd : Adds P (brun (start 0 {}) (qs.map QSpec.op)) t.m.builder := by
    refine n.adds (top := top) (by show c2.frame ≤ _; omega) hi.lnodup hi.qlist ?_ ?_
    · intro q mq x hx hn a ma hia hlt
      have hx : c2.qs q = some x := hx
      have ma : a ∈ c2.rrs (bucket x.name lprime) := ma
      rw [st.rrs] at ma
      have hx' : d.c.qs q = some x := by rw [st.qs] at hx; exact hx
      have htr := h.tries q x hx'
      have hn' : ¬ (x.nexttry = 0 ∨ x.nexttry > c2.now.sec) := hn.1
      have mx : x ∈ c2.dueQs c2.qlist := mem_dueQs.mpr ⟨q, mq, hx, by
        have := hn.2
        unfold Core.due
        omega⟩
      obtain ⟨h1, h2, h3⟩ := hq _ _ (hdue x mx)
      have hli : a ∈ d.c.listed x.name x.type := by
        rw [listed_eq, List.mem_filter]
        exact ⟨ma, hia⟩
      obtain ⟨g1, g2, g3⟩ := h3 a hli
      obtain ⟨i1, _⟩ := (is_iff _ _ _).mp hia
      refine ⟨g3, x.type, a, by rw [i1]; exact hli, ?_, g3, by rw [i1]; exact h1, by rw [g1]; exact h2, g2, by rw [← hnow]; exact hlt⟩
      show known c2.cls c2.now.sec x.name x.type a = _
      rw [hcls, hnow, i1, g1]
    · show Adds P _ (blankQ.add _).builder
      rw [hS]
      exact ⟨[], (by intro _ h; cases h), rfl, by
        intro pre _ _ e
        cases pre <;> cases e⟩
  obtain ⟨ks, hks, hM, hraw⟩ := hadd
  have hksok : ∀ k ∈ ks, k.Ok top := by
    intro k mk
    obtain ⟨_, a, _, rfl, g1, g2, g3, g4, _⟩ := hks k mk
    exact g1.ok g2 rfl g3 g4 hc
  have hops : (⟨0, {}, qs, ks, [], []⟩ : MSpec).ops = qs.map QSpec.op ++ ks.flatMap (RSpec.ops .an) := by
    simp [MSpec.ops]
  have hb : t.m.builder = brun (start 0 {}) (⟨0, {}, qs, ks, [], []⟩ : MSpec).ops := by
    rw [hops, brun_append, hM]
  have hpk : messagePacket t.m.builder = (⟨0, {}, qs, ks, [], []⟩ : MSpec).packet := by
    unfold MSpec.packet
    rw [hb]
  have hraw' : (⟨0, {}, qs, ks, [], []⟩ : MSpec).RawFits := by
    intro pre b post e
    rw [hops] at e
    rcases List.append_eq_append_iff.mp e with ⟨a, e1, e3⟩ | ⟨a, e1, e3⟩
    · have := hraw a b post e3
      unfold packetLen
      rw [e1, brun_append]
      exact this
    · cases a with
      | nil =>
        have := hraw [] b post e3.symm
        unfold packetLen
        rw [List.append_nil] at e1
        rw [← e1]
        exact this
      | cons o a =>
        rw [List.cons_append] at e3
        injection e3 with e3 e4
        subst e3
        have : BOp.raw b ∈ qs.map QSpec.op := by rw [e1]; simp
        obtain ⟨q, _, hq⟩ := List.mem_map.mp this
        cases hq
  refine ⟨qs, ks, hpk, ?_, ?_, ?_, hks⟩
  · have hstart : BS top none (start 0 ({} : Header)).pkt (start 0 ({} : Header)).labels := .fresh _ (by simp [start])
    obtain ⟨b1, σ1, x1, x2, x3⟩ := qs_BS top qs none _ hstart hqsok
    obtain ⟨b2, σ2, y1, y2, y3⟩ := rs_BS top .an ks _ _ x3 hksok hraw
    have hlen : t.m.builder.pkt.length = 12 + b1.length + b2.length := by
      rw [hM, y1, x1]
      simp only [start, List.length_append, List.length_replicate]
    have hl : t.m.builder.pkt.length ≤ 1400 := hl
    have c1 := x2.cost hqsok
    have c2 := y2.cost hksok
    exact {
      id := by show 0 < 65536; decide
      header := ⟨by show 0 < 16; decide, by show 0 < 8; decide, by show 0 < 16; decide⟩
      qd := hqsok
      an := hksok
      ns := by intro q hq; cases hq
      ar := by intro q hq; cases hq
      packet := by
        rw [← hpk]
        unfold messagePacket
        have : (headerBytes t.m.builder).length = 12 := by simp [headerBytes, putShort, flagBytes]
        simp only [List.length_append, List.length_drop]
        omega
      raw := hraw'
      cost := by
        unfold MSpec.cost
        simp only [List.length_nil, List.map_nil, List.sum_nil]
        omega }
  · obtain ⟨x, mx, rfl, rfl⟩ := hhost
    exact List.mem_map_of_mem (f := fun x : Query => (⟨x.name, x.type, d.c.cls⟩ : QSpec)) mx
  · intro q mq
    obtain ⟨x, mx, rfl⟩ := List.mem_map.mp mq
    exact hdue x mx

/-! ### The daemon that is asked -/

/-- Whether an enumeration of services is answered, and whether the daemon is shut down. -/
def Core.mode (c : Core) : Bool × Bool := (c.disco, c.shutdown)

theorem mode_recfree {c c' : Core} (h : c'.recfree = c.recfree) : c'.mode = c.mode :=
  (congrArg Core.mode h : c'.recfree.mode = c.recfree.mode)

theorem Locals.mode {env : Env} {c c' : Core} (h : Locals env c c') : c'.mode = c.mode := by
  obtain ⟨_, _, _, rfl, _⟩ := h
  rfl

theorem sendSt_mode (c : Core) (l : Lists) (r : Nat) (x : Rec) : (sendSt c l r x).c.mode = c.mode :=
  mode_recfree (sendSt_recfree c l r x)

theorem AnsL.mode {env : Env} {src : Addr} {q : Question} {an : List Resource} {rs : List Nat} {s t : ISt}
    (n : AnsL env src q an rs s t) : t.c.mode = s.c.mode := by
  induction n with
  | done h => rfl
  | quiet _ _ _ hl _ _ ih => exact ih.trans hl.mode
  | conflict _ _ _ hl _ _ ih => exact ih.trans hl.mode
  | known _ _ _ _ _ _ ih => exact ih
  | send _ _ _ _ _ _ ih => exact ih.trans (sendSt_mode ..)

theorem InQs.mode {env : Env} {m : Msg} {src : Addr} {qs : List Question} {did : Bool} {c c' : Core} {l l' : Lists}
    (n : InQs env m src qs did c l c' l') (hq : ∀ q ∈ qs, q.name ≠ discoName) : c'.mode = c.mode := by
  induction n with
  | nil => rfl
  | cons _ h _ ih =>
    refine (ih fun q m => hq q (by simp [m])).trans ?_
    cases h with
    | none _ => rfl
    | disco _ h => exact absurd h (hq _ (by simp))
    | multi _ _ _ n _ => exact n.mode
    | uni _ _ _ n _ => exact n.mode

/-- What a query that is no enumeration of services leaves alone. -/
theorem Queried.leaves {env : Env} {h : List Call} {d d' : D Ptrs} {now : TV} {m : Msg} {src : Addr}
    (k : Queried env h d now m src d') (hq : ∀ q ∈ m.qd, q.name ≠ discoName) :
    d'.c.mode = d.c.mode ∧ d'.c.fixed = d.c.fixed ∧ Fewer d.c d'.c := by
  obtain ⟨c1, hl, hf, n, hc⟩ := k.run
  exact ⟨(n.mode hq).trans hl.mode, n.fixed.trans hl.fixed, (Fewer.of_eq hl.recs).trans n.fewer⟩

/-- A packet with answers for everyone is a response. -/
theorem OutMsg.answer_qr {env : Env} {c : Core} {l : Lists} {ret : Nat} {m : Out} {to : Addr} {c' : Core} {l' : Lists}
    (n : OutMsg env c l ret m to c' l') (hu : c.uanswers = []) {r : Nat} (hr : (Section.an, r) ∈ m.tags) : m.qr = true := by
  have h0 : OPacked c ⟨c, l, {}, [], 0⟩ := ⟨.refl c, rfl, .nil⟩
  cases n with
  | unicast h => rw [hu] at h; cases h
  | shutdown h n1 n2 => exact (n2.packed (n1.packed h0)).packed.id.2.1
  | normal h n1 n2 hs n3 =>
    have a := n2.answering (n1.answering (.start c l))
    have h2 := n2.packed (n1.packed h0)
    cases n3 with
    | answers np na =>
      have h3 := np.packed h2
      exact (na.packed h3.kept h3.frame h3.packed).id.2.1
    | @probes s3 s4 m0 seen np na h0' nb hr2 =>
      have a := np.answering a
      obtain ⟨e1, e2⟩ := a.empty h0'
      rw [e2] at na
      have := na.none
      subst this
      obtain ⟨rs, hn, e, er⟩ := nb.tags
      have e : s4.m.tags = s3.m.tags ++ rs.map fun r => (.ns, r) := e
      rw [e, e1] at hr
      simp at hr
    | @questions s3 s4 m0 seen _ _ _ _ np na h0' nb hr2 nq ng =>
      have a := np.answering a
      obtain ⟨e1, e2⟩ := a.empty h0'
      rw [e2] at na
      have := na.none
      subst this
      obtain ⟨rs, hn, e, er⟩ := nb.tags
      have e : s4.m.tags = s3.m.tags ++ rs.map fun r => (.ns, r) := e
      rw [nq.tags, e, e1] at hr
      simp at hr

/-- Records are not changed by making packets. -/
theorem Calls.kept {env : Env} {d d' : D Ptrs} {h : List Call} (n : Calls env d h d') (hr : Reach env d)
    (hs : ∀ k ∈ h, ∃ t, k.1 = .send t) : Kept d.c d'.c ∧ d'.c.frame = d.c.frame := by
  refine n.induct (P := fun _ c _ => Kept d.c c ∧ c.frame = d.c.frame) hr ⟨.refl _, rfl⟩ ?_
  rintro h1 c l o a c' l' ⟨h2, e⟩ ⟨k, f⟩ _ _ _ hdid _
  obtain ⟨t, rfl⟩ := hs (o, a) (by rw [e]; simp)
  cases hdid with
  | send ho =>
    have k' := ho.kept
    refine ⟨⟨k'.1.trans k.1, fun r x hx => ?_⟩, (Core.conf_eq ho.conf).2.1.trans f⟩
    obtain ⟨x1, h1, h2, h3⟩ := k'.2 r x hx
    obtain ⟨x0, h4, h5, h6⟩ := k.2 r x1 h1
    exact ⟨x0, h4, h2.trans h5, h3.trans h6⟩

/-! ### The theorem -/

/-- A daemon asks: the packet it makes at the time `now` has a question for the name and type, is
no longer than 1400 bytes, and everything in it can be sent. -/
structure AskedFor (env : Env) (top : Bytes) (d : D Ptrs) (now : TV) (m : Out) (host : Bytes) (type : Nat) : Prop where
  reach : Reach env d
  safe : OpSafe env d.c d.q.walk (.send now)
  made : ∃ ret to d', Mdns.step env (.send now) d = .ok (.sent ret m to, d')
  asks : m.asks host type = true
  good : Askable top d.c m
  cls : d.c.cls < 32768
  frame : d.c.frame ≤ 1300
  len : m.len ≤ 1400

/-- A daemon that has published the record `x`: the record was set, is neither probed for nor
being announced; all records of the daemon can be sent, and each fits in a packet. -/
structure HasPublished (env : Env) (top : Bytes) (h : List Call) (d : D Ptrs) (r : Nat) (x : Rec) : Prop where
  hist : Hist env h d
  up : d.c.shutdown = false
  plain : d.c.disco = false
  fits : FitsAlone d.c
  good : ∀ s y, d.c.recs s = some y → Publishable top y.rr
  cls : d.c.cls < 32768
  frame : d.c.frame ≤ 1300
  has : d.c.recs r = some x
  wasSet : ∃ k ∈ h, k.1.sets r = true
  probed : r ∉ d.q.walk .probing
  announced : r ∉ d.q.walk .publish
  live : x.rr.ttl ≠ 0

/-! ### When a shared record may be sent -/

/-- The time shared records wait for, see `_r_send`. -/
def soon (now : TV) : TV := ⟨now.sec, now.usec + now.usec % 100 + 20⟩

/-- The clock is the same and the pause stays as soon as it is set. -/
structure Soon (c c' : Core) : Prop where
  now : c'.now = c.now
  stays : c.pause = soon c.now → c'.pause = soon c'.now

theorem Soon.same {c c' : Core} (h1 : c'.now = c.now) (h2 : c'.pause = c.pause) : Soon c c' :=
  ⟨h1, fun h => by rw [h2, h1]; exact h⟩

theorem Soon.trans {c c1 c2 : Core} (h : Soon c c1) (h' : Soon c1 c2) : Soon c c2 :=
  ⟨h'.now.trans h.now, fun e => h'.stays (h.stays e)⟩

theorem Soon.after {c c1 c' : Core} (h : Soon c1 c') (h1 : c1.now = c.now) (h2 : c1.pause = c.pause) : Soon c c' :=
  (Soon.same h1 h2).trans h

theorem Locals.soon {env : Env} {c c' : Core} (h : Locals env c c') : Soon c c' := by
  obtain ⟨_, _, _, rfl, _⟩ := h
  exact .same rfl rfl

theorem sendSt_soon (c : Core) (l : Lists) (r : Nat) (x : Rec) : Soon c (sendSt c l r x).c := by
  unfold sendSt
  split
  · exact .same rfl rfl
  · split
    · exact .same rfl rfl
    · exact ⟨rfl, fun _ => rfl⟩

theorem AnsL.soon {env : Env} {src : Addr} {q : Question} {an : List Resource} {rs : List Nat} {s t : ISt}
    (n : AnsL env src q an rs s t) : Soon s.c t.c := by
  induction n with
  | done h => exact .same rfl rfl
  | quiet _ _ _ hl _ _ ih => exact hl.soon.trans ih
  | conflict _ _ _ hl _ _ ih => exact hl.soon.trans (ih.after rfl rfl)
  | known _ _ _ _ _ _ ih => exact ih.after rfl rfl
  | send _ _ _ _ _ _ ih => exact ((sendSt_soon ..).trans ih).after rfl rfl

theorem AnsL.paused {env : Env} {src : Addr} {q : Question} {an : List Resource} {rs : List Nat} {s t : ISt}
    (n : AnsL env src q an rs s t) {r : Nat} {x : Rec} (hx : s.c.recs r = some x) (h4 : ¬ x.tries < 4) (hu : x.unique = 0)
    (hk : ¬ Knows q an x) (hr : r ∈ rs) : t.c.pause = Mdns.soon t.c.now := by
  induction n with
  | done h => cases hr
  | quiet _ hy hu' hl _ _ ih =>
    rcases List.mem_cons.mp hr with rfl | hr
    · rw [hx] at hy
      cases hy
      exact absurd hu hu'.1
    · refine ih ?_ hr
      show _ = _
      rw [hl.recs]
      exact hx
  | @conflict r' _ _ _ _ _ _ hy hu' hl _ _ ih =>
    rcases List.mem_cons.mp hr with rfl | hr
    · rw [hx] at hy
      cases hy
      exact absurd hu hu'.1
    · refine ih ?_ hr
      have hne : r ≠ r' := by
        rintro rfl
        rw [hx] at hy
        cases hy
        exact hu'.1 hu
      show upd _ r' none r = _
      rw [upd_other _ _ _ _ hne]
      exact (congrFun hl.recs r).trans hx
  | known _ hy _ _ hk' _ ih =>
    rcases List.mem_cons.mp hr with rfl | hr
    · rw [hx] at hy
      cases hy
      exact absurd (knows_iff.mp hk') hk
    · exact ih hx hr
  | send _ hy _ _ _ n ih =>
    rcases List.mem_cons.mp hr with rfl | hr
    · rw [hx] at hy
      cases hy
      refine n.soon.stays ?_
      show (sendSt ..).c.pause = Mdns.soon (sendSt ..).c.now
      unfold sendSt
      rw [if_neg h4, if_neg (by simp [hu])]
      rfl
    · refine ih ?_ hr
      show (sendSt ..).c.recs r = _
      rw [sendSt_recs]
      exact hx

theorem InQ.soon {env : Env} {m : Msg} {src : Addr} {q : Question} {did did' : Bool} {c c' : Core} {l l' : Lists}
    (n : InQ env m src q did c l did' c' l') (hq : q.name ≠ discoName) : Soon c c' := by
  cases n with
  | none _ => exact .same rfl rfl
  | disco _ h => exact absurd h hq
  | multi _ _ _ n _ => exact n.soon
  | uni _ _ _ n _ => exact n.soon.trans (.same rfl rfl)

theorem InQs.paused {env : Env} {m : Msg} {src : Addr} {qs : List Question} {did : Bool} {c c' : Core} {l l' : Lists}
    (n : InQs env m src qs did c l c' l') (hq : ∀ q ∈ qs, q.name ≠ discoName) {r : Nat} {x : Rec} (hx : c.recs r = some x)
    (h4 : ¬ x.tries < 4) (hu : x.unique = 0) (hk : ∀ q ∈ qs, q.about c.cls x.rr → ¬ Knows q m.an x)
    (h : (∃ q ∈ qs, q.about c.cls x.rr) ∨ c.pause = soon c.now) : c'.pause = soon c.now ∧ c'.now = c.now := by
  induction n with
  | nil =>
    rcases h with ⟨_, m, _⟩ | h
    · cases m
    · exact ⟨h, rfl⟩
  | @cons q' qs did did' c c1 c' l l1 l' i hq' n ih =>
    have f := hq'.fate i.rinv hx
    have hb : ¬ x.Bare := fun h => absurd hu h.1.1
    have e : c1.recs r = some x := by
      rcases f.x hx with e | ⟨_, hb', _⟩
      · exact e
      · exact absurd hb' hb
    have hs := hq'.soon (hq _ (List.mem_cons_self ..))
    rw [← hs.now]
    refine ih (fun q m => hq q (List.mem_cons_of_mem _ m)) e
      (fun q m' => by rw [hq'.around.1]; exact hk q (List.mem_cons_of_mem _ m')) ?_
    rw [hq'.around.1]
    rcases h with ⟨q, mq, ha⟩ | h
    · rcases List.mem_cons.mp mq with rfl | mq
      · right
        have hm : r ∈ c.matching q.name q.type := (mem_matching i.rinv hx).mpr ha.2
        have hkq := hk q (List.mem_cons_self ..) ha
        cases hq' with
        | none h =>
          rcases h with h | h
          · exact absurd ha.1 h
          · rw [h] at hm
            cases hm
        | disco _ h => exact absurd h (hq _ (List.mem_cons_self ..))
        | multi _ _ _ n1 _ => exact n1.paused hx h4 hu hkq hm
        | uni _ _ _ n1 _ => exact n1.paused hx h4 hu hkq hm
      · exact .inl ⟨q, mq, ha⟩
    · exact .inr (hs.stays h)

/-- A shared record that is asked for waits for at most 119 microseconds. -/
theorem Queried.paused {env : Env} {h : List Call} {d d' : D Ptrs} {now : TV} {m : Msg} {src : Addr}
    (k : Queried env h d now m src d') (hdn : ∀ q ∈ m.qd, q.name ≠ discoName) {r : Nat} {x : Rec} (hx : d.c.recs r = some x)
    (hs : ∃ k ∈ h, k.1.sets r = true) (hp : r ∉ d.q.walk .probing) (hb : r ∉ d.q.walk .publish)
    (hq : ∃ q ∈ m.qd, q.about d.c.cls x.rr) (hk : ∀ a ∈ m.an, carries a x.rr = false) (hu : x.unique = 0) :
    d'.c.pause = soon now := by
  obtain ⟨c1, hl, hf, n, hc⟩ := k.run
  have hr := k.hist.reach
  have np : ¬ x.Probing := fun h => hp ((hr.inv.rinv.probing r x hx).mpr h)
  have h4 : ¬ x.tries < 4 := by
    rcases k.hist.wasSet hs x hx with h | h | h
    · exact absurd h np
    · exact absurd ((mem_place hr.inv.rinv _).mpr h) hb
    · omega
  have := n.paused hdn (r := r) (x := x) (hl.recs ▸ hx) h4 hu (fun q mq ha => by
    rw [hc] at ha
    rintro ⟨a, ma, h1, h2⟩
    rw [aMatch_carries (k.wf a ma) ha h1, hk a ma] at h2
    cases h2) (.inl (by rw [hc]; exact hq))
  rw [this.1, hl.soon.now]

/-! ### Asking and answering -/

theorem holds_self (P : Bytes) : Holds ⟨P.length, fun i => P.getD i 0⟩ P := by
  refine ⟨Nat.le_refl _, ?_⟩
  intro i hi
  simp

/-- A daemon is asked for a record, the packet is read and the record is queued. -/
structure Receives (env : Env) (a a1 : D Ptrs) (r : Nat) (x : Rec) : Prop where
  reach : Reach env a1
  fits : FitsAlone a1.c
  plain : a1.c.disco = false
  up : a1.c.shutdown = false
  cls : a1.c.cls = a.c.cls
  frame : a1.c.frame = a.c.frame
  recs : ∀ s y, a1.c.recs s = some y → a.c.recs s = some y
  queue : r ∈ a1.q.walk (if x.unique ≠ 0 then .now else .pause)

theorem asked_queued {envA envB : Env} {top : Bytes} {a b : D Ptrs} {h : List Call} {nowB : TV} {m : Out}
    {host : Bytes} {type r : Nat} {x : Rec} (hb : AskedFor envB top b nowB m host type)
    (ha : HasPublished envA top h a r x) (hn : x.rr.name = canon host) (ht : typeFits type x.rr) (hc : a.c.cls = b.c.cls)
    (hnew : ∀ n t, ∀ y ∈ b.c.listed n t, SameRec x.rr y.dotted → y.ttl ≤ nowB.sec + 8)
    (hd : ∀ n t, m.asks n t = true → canon n ≠ discoName) {srcB : Addr} (hsrc : Elsewhere envA a.c srcB) (nowA : TV) :
    ∃ (spec : MSpec) (a1 : D Ptrs), messagePacket m.builder = spec.packet ∧ spec.Ok top ∧
      Mdns.step envA (.recv nowA spec.seen srcB) a = .ok (.unit, a1) ∧ Receives envA a a1 r x ∧
      (x.unique = 0 → a1.c.pause = soon nowA) := by
  obtain ⟨ret0, to0, b', e0⟩ := hb.made
  obtain ⟨qs, ks, hpk, hok, hq, hqs, hks⟩ := hb.reach.question hb.safe e0 hb.asks hb.good hb.cls hb.frame hb.len
  have hparse := C03_build_parse_partial top _ hok _ (holds_self _)
  have hra := ha.hist.reach
  have wf := messageParse_wf hparse
  obtain ⟨l, hrep⟩ := hra.rep
  refine ⟨⟨0, {}, qs, ks, [], []⟩, ?_⟩
  generalize hmsg : (⟨0, {}, qs, ks, [], []⟩ : MSpec).seen = msg at hparse wf
  have hqd : msg.qd = qs.map QSpec.seen := by rw [← hmsg]; rfl
  have han : msg.an = ks.map RSpec.seen := by rw [← hmsg]; rfl
  obtain ⟨o, a1, e1⟩ : ∃ o a1, Mdns.step envA (.recv nowA msg srcB) a = .ok (o, a1) := by
    obtain ⟨o, a1, _, e, _⟩ := hrep.step (.recv nowA msg srcB) wf
    exact ⟨o, a1, e⟩
  have ho : o = .unit := by
    cases hra.did (o := .recv nowA msg srcB) wf e1 with
    | recv => rfl
  subst ho
  have k : Queried envA h a nowA msg srcB a1 := ⟨ha.hist, ha.up, by rw [← hmsg]; rfl, hsrc, wf, .unit, e1⟩
  have hd' : ∀ q ∈ msg.qd, q.name ≠ discoName := by
    intro q mq
    rw [hqd] at mq
    obtain ⟨s, ms, rfl⟩ := List.mem_map.mp mq
    exact hd _ _ (hqs s ms)
  obtain ⟨l1, l2, l3⟩ := k.leaves hd'
  have hask : ∃ q ∈ msg.qd, q.about a.c.cls x.rr :=
    ⟨QSpec.seen ⟨host, type, b.c.cls⟩, by rw [hqd]; exact List.mem_map_of_mem hq, hc.symm, hn, ht⟩
  have hkn : ∀ s ∈ msg.an, carries s x.rr = false := by
    intro s ms
    rw [han] at ms
    obtain ⟨u, mu, rfl⟩ := List.mem_map.mp ms
    obtain ⟨t, y, my, rfl, g1, g2, g3, g4, g5⟩ := hks u mu
    rw [Bool.eq_false_iff]
    intro hca
    have := hnew _ _ y my ((carries_known g1 g2 g3 g4 _ _ _).mp hca)
    omega
  have hqueue := k.queue ha.has ha.wasSet ha.probed ha.announced hask hkn
  have hfr1 : a1.c.frame = a.c.frame := congrArg (·.2.1) l2
  exact ⟨a1, hpk, hok, e1, {
    reach := hra.step (o := .recv nowA msg srcB) wf e1
    fits := by
      intro s y hy
      rw [hfr1]
      exact ha.fits s y (l3 s y hy)
    plain := (congrArg (·.1) l1 : a1.c.disco = a.c.disco).trans ha.plain
    up := (congrArg (·.2) l1 : a1.c.shutdown = a.c.shutdown).trans ha.up
    cls := congrArg (·.1) l2
    frame := hfr1
    recs := l3
    queue := hqueue }, k.paused hd' ha.has ha.wasSet ha.probed ha.announced hask hkn⟩

/-- The packet `m` makes a daemon that reads it tell the callback of a query for the record. -/
def Tells (env : Env) (m : Out) (x : Rec) : Prop :=
  ∀ {d : D Ptrs} {src : Addr} {now : TV}, Reach env d → d.c.shutdown = false → Elsewhere env d.c src →
    x.rr.type ≠ 255 → (callback d.c.log (canon x.rr.name) x.rr.type).isSome →
    (∀ rr ∈ d.c.listed (canon x.rr.name) x.rr.type, ¬ SameRec rr x.rr.dotted) →
    ∃ top spec d' evs, messagePacket m.builder = MSpec.packet spec ∧ spec.Ok top ∧
      Mdns.step env (.recv now spec.seen src) d = .ok (.unit, d') ∧ d'.c.log = d.c.log ++ evs ∧
      (Event.unregistered (canon x.rr.name) x.rr.type ∈ evs ∨
        ∃ pre q cb rr post, evs = pre ++ .answer q cb rr :: post ∧
          callback (d.c.log ++ pre) (canon x.rr.name) x.rr.type = some cb ∧ SameRec rr x.rr.dotted ∧ rr.ttl ≠ 0)

/-- A packet of the daemon with the record among the answers is heard. -/
theorem shown_heard {envA envB : Env} {top : Bytes} {a a1 a2 : D Ptrs} {h h' : List Call} {r : Nat} {x : Rec}
    (ha : HasPublished envA top h a r x) (hrc : Receives envA a a1 r x) (n : Calls envA a1 h' a2)
    (hs : ∀ k ∈ h', ∃ t, k.1 = .send t) {kk : Call} (mk : kk ∈ h') (hsh : Call.shows .an r kk = true) :
    ∃ t m1 ret to, kk = (Op.send t, OpOut.sent ret m1 to) ∧ to.port = 5353 ∧ Tells envB m1 x := by
  have hr1 := hrc.reach
  obtain ⟨pre, post, rfl⟩ := List.append_of_mem mk
  obtain ⟨d1, d2, n1, hso, e2, _⟩ := Calls.at (o := kk.1) (a := kk.2) n
  obtain ⟨t, ht1⟩ := hs kk mk
  obtain ⟨o, out⟩ := kk
  simp only at ht1
  subst ht1
  have hr2 := n1.reach hr1
  obtain ⟨kp, kf⟩ := n1.kept hr1 (fun k m => by
    obtain ⟨t, e⟩ := hs k (by simp [m])
    exact ⟨t, e⟩)
  simp only at hso e2
  unfold Call.shows at hsh
  rw [Bool.and_eq_true] at hsh
  simp only at hsh
  obtain ⟨hmul, htag⟩ := hsh
  cases out with
  | sent ret m1 to =>
    have hto : to.port = 5353 := beq_iff_eq.mp hmul
    have htag : (Section.an, r) ∈ m1.tags := List.contains_iff_mem.mp htag
    refine ⟨t, m1, ret, to, rfl, hto, ?_⟩
    intro d srcA now hrd hupd hsrcd h255 hreg hnl
    have hdid := hr2.did hso e2
    have hqr : m1.qr = true := by
      generalize d2.c = c', d2.lists = l' at hdid
      cases hdid with
      | send ho => exact ho.answer_qr (ho.nouni hto hr2.uni) htag
    have hrec : ∀ s y, d1.c.recs s = some y → ∃ y0, a.c.recs s = some y0 ∧ y.rr = y0.rr := by
      intro s y hy
      obtain ⟨y0, h1, h2, _⟩ := kp.2 s y hy
      exact ⟨y0, hrc.recs s y0 h1, h2⟩
    have hcls : d1.c.cls < 32768 := by rw [kp.1, hrc.cls]; exact ha.cls
    have hfra : d1.c.frame ≤ 1300 := by rw [kf, hrc.frame]; exact ha.frame
    have hgood : ∀ t ∈ m1.tags, ∀ y, d1.c.recs t.2 = some y → Publishable top y.rr := by
      intro g _ y hy
      obtain ⟨y0, h1, h2⟩ := hrec _ y hy
      rw [h2]
      exact ha.good _ _ h1
    obtain ⟨spec, hpk, hok⟩ : ∃ spec : MSpec, messagePacket m1.builder = spec.packet ∧ spec.Ok top := by
      generalize d2.c = c', d2.lists = l' at hdid
      cases hdid with
      | send ho =>
        have hu := ho.nouni hto hr2.uni
        obtain ⟨as, xs, ht⟩ := ho.sections hu hqr
        obtain ⟨e1, e2⟩ := Packed.response (ho.packed hu hqr) (top := top) ht hgood hcls hfra (C40_response_partial hr2 hso e2 hto hqr)
        exact ⟨_, e1, e2⟩
    obtain ⟨msg', d', evs, p1, p2, p3, _, p4⟩ := C55_discovered_partial hr2 hso e2 hto hqr (top := top) (src := srcA)
      (now' := now) hcls hfra hgood (holds_self (messagePacket m1.builder)) hrd hupd hsrcd
    have hms : msg' = spec.seen := by
      have := C03_build_parse_partial top _ hok _ (hpk ▸ holds_self (messagePacket m1.builder))
      rw [hpk, this] at p1
      cases p1
      rfl
    subst hms
    refine ⟨top, spec, d', evs, hpk, hok, p2, p3, ?_⟩
    have : ∃ x1, d1.c.recs r = some x1 := by
      generalize d2.c = c', d2.lists = l' at hdid
      cases hdid with
      | send ho => exact (ho.packed (ho.nouni hto hr2.uni) hqr).recs _ htag
    obtain ⟨x1, hx1⟩ := this
    obtain ⟨x0, h1, h2⟩ := hrec r x1 hx1
    rw [ha.has] at h1
    cases h1
    have := p4 r x1 htag hx1
    rw [h2] at this
    exact this h255 ha.live hreg hnl
  | _ => cases hmul

/-- C67 (partial): the daemon B asks for a name and type and the daemon A has published a record
with this name and type that B does not know, or not for more than eight seconds longer. Then A reads the packet, and among the packets that
A makes afterwards there is one that B reads and that makes it tell the callback registered for the
name and type of the record, unless the query ends at that moment.

Assumed are names below a common top label, packets of at most 1400 bytes, and that the packet does
not ask for the enumeration of services as well (see `C33_discovery_counterexample`). `N` is how
many packets A makes at most until then. The query of B at the time of the answer is one for the
type of the record, as queries for any type are not told, see `C55_any_counterexample`. -/
theorem C67_asked_found_partial {envA envB : Env} {top : Bytes} {a b : D Ptrs} {h : List Call} {nowB : TV} {m : Out}
    {host : Bytes} {type r : Nat} {x : Rec} (hb : AskedFor envB top b nowB m host type)
    (ha : HasPublished envA top h a r x) (hn : x.rr.name = canon host) (ht : typeFits type x.rr) (hc : a.c.cls = b.c.cls)
    (hnew : ∀ n t, ∀ y ∈ b.c.listed n t, SameRec x.rr y.dotted → y.ttl ≤ nowB.sec + 8)
    (hd : ∀ n t, m.asks n t = true → canon n ≠ discoName) {srcB : Addr} (hsrc : Elsewhere envA a.c srcB) (nowA : TV)
    {buf : RBuf} (hbuf : Holds buf (messagePacket m.builder)) :
    ∃ msg a1, messageParse buf structCap = .ok msg ∧ Mdns.step envA (.recv nowA msg srcB) a = .ok (.unit, a1) ∧
      ∃ N, ∀ h' a2, Calls envA a1 h' a2 → (∀ k ∈ h', ∃ t, k.1 = .send t ∧ tvdiff t a1.c.pause ≤ 0) → N ≤ h'.length →
        ∃ t m1 ret to, (Op.send t, OpOut.sent ret m1 to) ∈ h' ∧ to.port = 5353 ∧
          ∀ {d : D Ptrs} {srcA : Addr} {now : TV} {buf' : RBuf}, Reach envB d → d.c.shutdown = false → Elsewhere envB d.c srcA →
            Holds buf' (messagePacket m1.builder) → x.rr.type ≠ 255 →
            (callback d.c.log (canon x.rr.name) x.rr.type).isSome →
            (∀ rr ∈ d.c.listed (canon x.rr.name) x.rr.type, ¬ SameRec rr x.rr.dotted) →
            ∃ msg' d' evs, messageParse buf' structCap = .ok msg' ∧
              Mdns.step envB (.recv now msg' srcA) d = .ok (.unit, d') ∧ d'.c.log = d.c.log ++ evs ∧
              (Event.unregistered (canon x.rr.name) x.rr.type ∈ evs ∨
                ∃ pre q cb rr post, evs = pre ++ .answer q cb rr :: post ∧
                  callback (d.c.log ++ pre) (canon x.rr.name) x.rr.type = some cb ∧ SameRec rr x.rr.dotted ∧ rr.ttl ≠ 0) := by
  obtain ⟨spec, a1, hpk, hok, e1, hrc, _⟩ := asked_queued hb ha hn ht hc hnew hd hsrc nowA
  rw [hpk] at hbuf
  have hq := hrc.queue
  obtain ⟨N, hN⟩ := C33_queued_sent_partial hrc.reach hrc.plain hrc.fits (r := r) (by
    split at hq
    · exact .inl hq
    · exact .inr ⟨hq, hrc.up⟩)
  refine ⟨spec.seen, a1, C03_build_parse_partial top _ hok buf hbuf, e1, N, fun h' a2 n hs hlen => ?_⟩
  obtain ⟨kk, mk, hsh⟩ := hN h' a2 n (fun k mk => by
    obtain ⟨t, e, h⟩ := hs k mk
    exact ⟨t, e, fun _ => h⟩) hlen
  obtain ⟨t, m1, ret, to, rfl, hto, htell⟩ := shown_heard (envB := envB) ha hrc n (fun k mk => by
    obtain ⟨t, e, _⟩ := hs k mk
    exact ⟨t, e⟩) mk hsh
  refine ⟨t, m1, ret, to, mk, hto, fun hrd hupd hsrcd hbuf' h255 hreg hnl => ?_⟩
  obtain ⟨top', spec', d', evs, g1, g2, g3⟩ := htell hrd hupd hsrcd h255 hreg hnl
  rw [g1] at hbuf'
  exact ⟨spec'.seen, d', evs, C03_build_parse_partial top' _ g2 _ hbuf', g3⟩

/-! ### Example -/

namespace Sample

/-- The daemon of `publisher`, after all announcements. -/
def published : List Op := publishing ++ sends [101, 103, 105, 107, 109]
def holder : D Ptrs := (trace quiet published (newD 1 1000 (at_ 100))).2

def isPtr (x : Rec) : Bool := decide (x.rr = ptrBA)
def isSrv (x : Rec) : Bool := decide (x.rr = srvBA)

/-- C67: the daemon that has published the pointer. -/
theorem holder_has : ∃ x, x.rr = ptrBA ∧
    HasPublished quiet [0x6C, 0x6F, 0x63, 0x61, 0x6C] (trace quiet published (newD 1 1000 (at_ 100))).1 holder 0 x := by
  have hc : Calls quiet (newD 1 1000 (at_ 100)) (trace quiet published (newD 1 1000 (at_ 100))).1 holder :=
    calls_of (by decide +kernel)
  have hr := hc.hist.reach
  obtain ⟨x, hx, e⟩ := Option.map_eq_some_iff.mp (show (holder.c.recs 0).map (·.rr) = some ptrBA by decide +kernel)
  have hall : allB holder (fun y => isPtr y || isSrv y) = true := by decide +kernel
  refine ⟨x, e, {
    hist := hc.hist
    up := by decide +kernel
    plain := by decide +kernel
    fits := fits_of hr (by decide +kernel)
    good := ?_
    cls := by decide +kernel
    frame := by decide +kernel
    has := hx
    wasSet := by
      have : (trace quiet published (newD 1 1000 (at_ 100))).1.any (fun k => k.1.sets 0) = true := by decide +kernel
      exact List.any_eq_true.mp this
    probed := by decide +kernel
    announced := by decide +kernel
    live := by rw [e]; decide }⟩
  intro s y hy
  have := all_of hr hall hy
  rw [Bool.or_eq_true] at this
  rcases this with h | h
  · rw [show y.rr = ptrBA from of_decide_eq_true h]; exact ptrBA_ok
  · rw [show y.rr = srvBA from of_decide_eq_true h]; exact srvBA_ok

def question (now : TV) (d : D Ptrs) : Out :=
  match Mdns.step quiet (.send now) d with
  | .ok (.sent _ m _, _) => m
  | _ => {}

/-- C67: the daemon that asks for it. -/
example : AskedFor quiet [0x6C, 0x6F, 0x63, 0x61, 0x6C] (browser 12) (at_ 110) (question (at_ 110) (browser 12)) nameA 12 ∧
    ptrBA.name = canon nameA ∧ (∀ n t, ∀ y ∈ (browser 12).c.listed n t, ¬ SameRec ptrBA y.dotted) ∧
    (∀ n t, (question (at_ 110) (browser 12)).asks n t = true → canon n ≠ discoName) := by
  have hr : Reach quiet (browser 12) := reach_of (by decide +kernel)
  obtain ⟨ret, m, to, d', e, hs, _⟩ := sent_of hr (at_ 110)
  have hm : question (at_ 110) (browser 12) = m := by unfold question; rw [e]
  have hq : (questions (question (at_ 110) (browser 12)).ops) = [(nameA, 12, 1)] := by decide +kernel
  have hone : ∀ n t, (question (at_ 110) (browser 12)).asks n t = true → n = nameA ∧ t = 12 := by
    intro n t h
    unfold Out.asks at h
    rw [Bool.and_eq_true, hq, List.any_eq_true] at h
    obtain ⟨q, mq, hd⟩ := h.2
    rw [List.mem_singleton.mp mq] at hd
    have := of_decide_eq_true hd
    exact ⟨this.1.symm, this.2.symm⟩
  have hnone : ∀ n t, (browser 12).c.listed n t = [] := by
    intro n t
    rw [listed_eq]
    have hb : ∀ i, (browser 12).c.cache i = [] := by
      intro i
      have hall : ((List.range 1009).all fun i => ((browser 12).c.cache i).isEmpty) = true := by decide +kernel
      cases h : (browser 12).c.cache i with
      | nil => rfl
      | cons y ys =>
        have hy := hr.inv.cinv.cbucket i y (by rw [h]; simp)
        have hlt : i < 1009 := by rw [← hy]; exact bucket_lt _ _ (by decide)
        have := List.all_eq_true.mp hall i (List.mem_range.mpr hlt)
        rw [h] at this
        cases this
    unfold Core.rrs
    rw [hb]
    rfl
  refine ⟨⟨hr, hs, ⟨ret, to, d', by rw [hm]; exact e⟩, by decide +kernel, ?_, by decide +kernel, by decide +kernel,
    by decide +kernel⟩, by decide +kernel, ?_, ?_⟩
  · intro n t h
    obtain ⟨rfl, rfl⟩ := hone n t h
    refine ⟨goodA, by decide, ?_⟩
    rw [hnone]
    simp
  · intro n t y hy
    rw [hnone] at hy
    cases hy
  · intro n t h
    obtain ⟨rfl, rfl⟩ := hone n t h
    decide +kernel

/-- Asking, answering and hearing: what the callbacks of the daemon that asks are told. -/
def finds : Option (List Answer) :=
  match messageParse (RBuf.ofBytes recvSize (messagePacket (question (at_ 110) (browser 12)).builder)) structCap with
  | .ok msg =>
    let holder' := (trace quiet [.recv (at_ 111) msg other] holder).2
    match messageParse (RBuf.ofBytes recvSize (messagePacket (question (at_ 112) holder').builder)) structCap with
    | .ok msg' => some (answersOf (trace quiet [.send (at_ 110), .recv (at_ 112) msg' other] (browser 12)).2.c.log)
    | _ => none
  | _ => none

example : finds.map (·.map fun b => (b.name, b.type, b.rdname)) = some [(nameA, 12, some nameBA)] := by decide +kernel

end Sample

end Mdns
