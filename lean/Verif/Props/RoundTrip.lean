import Verif.Props.Names

/-!
# C03: build, then parse

Messages whose names lie below a common top label (e.g. "local") and do not use
it elsewhere.
-/

namespace Mdns

open Spec

/-! ### Spec: messages and what the reader should see -/

inductive RData where
  | a (ip : Vector UInt8 4)
  | aaaa (ip : Vector UInt8 16)
  | name (n : Bytes)
  | srv (priority weight port : Nat) (n : Bytes)
  | raw (d : Bytes)

structure QSpec where
  name : Bytes
  type : Nat
  cls : Nat

structure RSpec where
  name : Bytes
  type : Nat
  cls : Nat
  ttl : Nat
  data : RData

structure MSpec where
  id : Nat
  header : Header
  qd : List QSpec
  an : List RSpec
  ns : List RSpec
  ar : List RSpec

/-- The calls that append record data. -/
def RData.op : RData → BOp
  | .a ip => .ipv4 ip
  | .aaaa ip => .ipv6 ip
  | .name n => .name n
  | .srv p w o n => .srv p w o n
  | .raw d => .raw d

def QSpec.op (q : QSpec) : BOp := .qd q.name q.type q.cls
def RSpec.ops (s : Section) (r : RSpec) : List BOp := [.rr s r.name r.type r.cls r.ttl, r.data.op]

/-- The calls that build the message. -/
def MSpec.ops (m : MSpec) : List BOp :=
  m.qd.map QSpec.op ++ m.an.flatMap (RSpec.ops .an) ++ m.ns.flatMap (RSpec.ops .ns) ++
    m.ar.flatMap (RSpec.ops .ar)

/-- The packet. -/
def MSpec.packet (m : MSpec) : Bytes := messagePacket (brun (start m.id m.header) m.ops)

/-- A name as the reader sees it: with a trailing dot. -/
def canon (n : Bytes) : Bytes := textOf (labelsOf n)

def RData.known : RData → Known
  | .a ip => .a ip.toList
  | .aaaa ip => .aaaa ip.toList
  | .name n => .name (canon n)
  | .srv p w o n => .srv p w o (canon n)
  | .raw _ => .none

/-- Raw rdata is reported for types whose data the reader does not interpret as
a name. -/
def RData.rdata : RData → Bytes
  | .a ip => ip.toList
  | .aaaa ip => ip.toList
  | .raw d => d
  | _ => []

def QSpec.seen (q : QSpec) : Question := ⟨canon q.name, q.type, q.cls⟩
def RSpec.seen (r : RSpec) : Resource := ⟨canon r.name, r.type, r.cls, r.ttl, r.data.rdata, r.data.known⟩
def MSpec.seen (m : MSpec) : Msg :=
  ⟨m.id, m.header, m.qd.map QSpec.seen, m.an.map RSpec.seen, m.ns.map RSpec.seen, m.ar.map RSpec.seen⟩

/-- The data suits the record type. -/
def RData.Fits (type : Nat) : RData → Prop
  | .a _ => type = 1
  | .aaaa _ => type = 28
  | .name _ => type = 2 ∨ type = 5 ∨ type = 12
  | .srv p w o _ => type = 33 ∧ p < 65536 ∧ w < 65536 ∧ o < 65536
  | .raw _ => type ≠ 1 ∧ type ≠ 28 ∧ type ≠ 2 ∧ type ≠ 5 ∧ type ≠ 12 ∧ type ≠ 33

def RData.names : RData → List Bytes
  | .name n => [n]
  | .srv _ _ _ n => [n]
  | _ => []

def GoodName (top n : Bytes) : Prop := HostName n ∧ Below top (labelsOf n)

structure QSpec.Ok (top : Bytes) (q : QSpec) : Prop where
  name : GoodName top q.name
  type : q.type < 65536
  cls : q.cls < 65536

structure RSpec.Ok (top : Bytes) (r : RSpec) : Prop where
  name : GoodName top r.name
  type : r.type < 65536
  cls : r.cls < 65536
  ttl : r.ttl < 4294967296
  fits : r.data.Fits r.type
  names : ∀ n ∈ r.data.names, GoodName top n

/-- Memory the reader needs for a name, for record data, for a message. -/
def nameCost (n : Bytes) : Nat := (canon n).length + 1
def RData.cost : RData → Nat
  | .a _ => 20
  | .aaaa _ => 62
  | .name n => nameCost n
  | .srv _ _ _ n => 6 + nameCost n
  | .raw d => d.length
def RSpec.cost (r : RSpec) : Nat := nameCost r.name + r.data.cost
def MSpec.cost (m : MSpec) : Nat :=
  16 * m.qd.length + (m.qd.map fun q => nameCost q.name).sum + 7 +
  64 * (m.an.length + m.ns.length + m.ar.length) +
  (m.an.map RSpec.cost).sum + (m.ns.map RSpec.cost).sum + (m.ar.map RSpec.cost).sum

/-- Raw record data ends within the first 4096 bytes (`message_rdata_raw` drops it
otherwise); the record's two length bytes are not counted. -/
def MSpec.RawFits (m : MSpec) : Prop :=
  ∀ pre d post, m.ops = pre ++ BOp.raw d :: post →
    packetLen (brun (start m.id m.header) pre) + d.length ≤ 4096

/-- Within the documented limits: the packet fits a datagram, raw data is not cut
off, the decoded message fits the 65535 bytes of working memory, names are below
the common top label. -/
structure MSpec.Ok (top : Bytes) (m : MSpec) : Prop where
  id : m.id < 65536
  header : m.header.InRange
  qd : ∀ q ∈ m.qd, q.Ok top
  an : ∀ r ∈ m.an, r.Ok top
  ns : ∀ r ∈ m.ns, r.Ok top
  ar : ∀ r ∈ m.ar, r.Ok top
  packet : m.packet.length ≤ 65535
  raw : m.RawFits
  cost : m.cost ≤ 65534

/-! ### Shape of the packet -/

/-- Bytes of a name: in full if it is the first, else labels and a pointer into
the first. -/
def NB : Option (List Bytes) → Bytes → List Bytes → Prop
  | none, nb, ls => nb = encLabels ls ++ [0]
  | some f, nb, ls => ∃ ls1 ls2 a, ls = ls1 ++ ls2 ∧ f = a ++ ls2 ∧ ls2 ≠ [] ∧
      nb = encLabels ls1 ++ ptrBytes (12 + (encLabels a).length)

def nxt (σ : Option (List Bytes)) (n : Bytes) : Option (List Bytes) := some (σ.getD (labelsOf n))

inductive QsBytes : Option (List Bytes) → List QSpec → Bytes → Option (List Bytes) → Prop where
  | nil (σ) : QsBytes σ [] [] σ
  | cons (σ q qs nb bs σ') : NB σ nb (labelsOf q.name) → QsBytes (nxt σ q.name) qs bs σ' →
      QsBytes σ (q :: qs) (nb ++ (putShort q.type ++ (putShort q.cls ++ bs))) σ'

inductive DataBytes (σ : Option (List Bytes)) : RData → Bytes → Prop where
  | a (ip) : DataBytes σ (.a ip) (putShort 4 ++ ip.toList)
  | aaaa (ip) : DataBytes σ (.aaaa ip) (putShort 16 ++ ip.toList)
  | name (n nb) : NB σ nb (labelsOf n) → DataBytes σ (.name n) (putShort nb.length ++ nb)
  | srv (p w o n nb) : NB σ nb (labelsOf n) →
      DataBytes σ (.srv p w o n) (putShort (nb.length + 6) ++ (putShort p ++ (putShort w ++ (putShort o ++ nb))))
  | raw (d) : DataBytes σ (.raw d) (putShort d.length ++ d)

inductive RsBytes : Option (List Bytes) → List RSpec → Bytes → Option (List Bytes) → Prop where
  | nil (σ) : RsBytes σ [] [] σ
  | cons (σ r rs nb db bs σ') : NB σ nb (labelsOf r.name) → DataBytes (nxt σ r.name) r.data db →
      RsBytes (nxt σ r.name) rs bs σ' →
      RsBytes σ (r :: rs) (nb ++ (putShort r.type ++ (putShort r.cls ++ (putLong r.ttl ++ (db ++ bs))))) σ'

/-! ### The builder produces that shape -/

/-- Builder states: nothing written, or first name written. -/
inductive BS (top : Bytes) : Option (List Bytes) → Bytes → List Nat → Prop where
  | fresh (pkt) : pkt.length = 12 → BS top none pkt []
  | used (f pkt labels) : OkLabels f → Below top f → (encLabels f).length ≤ 255 →
      (∃ r, pkt.drop 12 = encLabels f ++ 0 :: r) →
      (∀ o ∈ labels, (∃ a c, f = a ++ c ∧ c ≠ [] ∧ o = 12 + (encLabels a).length) ∨
        (∃ own b, Entry pkt o own b ∧ top ∉ own)) →
      (∃ a, f = a ++ [top] ∧ (12 + (encLabels a).length) ∈ labels) →
      BS top (some f) pkt labels

theorem Entry.of_first {pkt : Bytes} {f a c : List Bytes} {r : Bytes} (hd : pkt.drop 12 = encLabels f ++ 0 :: r)
    (hok : OkLabels f) (hf : f = a ++ c) (hc : c ≠ []) : Entry pkt (12 + (encLabels a).length) c 0 := by
  refine ⟨⟨r, ?_⟩, .inl rfl, fun l hl => hok l (by rw [hf]; simp [hl]), hc⟩
  have : pkt.drop 12 = encLabels a ++ (encLabels c ++ 0 :: r) := by
    rw [hd, hf, encLabels_append, List.append_assoc]
  exact drop_append_len this

theorem BS.append {top σ pkt labels} (h : BS top σ pkt labels) (hs : σ ≠ none) (q : Bytes) : BS top σ (pkt ++ q) labels := by
  cases h with
  | fresh => exact absurd rfl hs
  | used f pkt labels h1 h2 h3 h4 h5 h6 =>
    obtain ⟨r, hr⟩ := h4
    refine .used f _ labels h1 h2 h3 ⟨_, drop_append_of_drop q hr⟩ ?_ h6
    intro o ho
    rcases h5 o ho with h | ⟨own, b, he, ht⟩
    · exact .inl h
    · exact .inr ⟨own, b, he.append q, ht⟩

theorem BS.table {top σ pkt labels} (h : BS top σ pkt labels) : Table pkt labels := by
  cases h with
  | fresh => intro o ho; simp at ho
  | used f pkt labels h1 h2 h3 h4 h5 h6 =>
    obtain ⟨r, hr⟩ := h4
    intro o ho
    rcases h5 o ho with ⟨a, c, e1, e2, rfl⟩ | ⟨own, b, he, _⟩
    · exact ⟨c, 0, Entry.of_first hr h1 e1 e2⟩
    · exact ⟨own, b, he⟩

theorem length_le_127 (ls : List Bytes) (hok : OkLabels ls) : 2 * ls.length ≤ (encLabels ls).length := by
  induction ls with
  | nil => simp
  | cons l ls ih =>
    have := ih (fun a ha => hok a (by simp [ha]))
    have hl := hok l (by simp)
    rw [encLabels_cons]; simp only [List.length_cons, List.length_append]; omega

/-- `gap` are bytes appended before the name, patched later to `gap'`. -/
theorem host_BS (top : Bytes) (σ : Option (List Bytes)) (m : Builder) (gap gap' : Bytes)
    (hg : gap.length = gap'.length) (n : Bytes)
    (hb : BS top σ m.pkt m.labels) (hs : σ = none → gap = []) (hn : GoodName top n) :
    ∃ nb, (host (m.put gap) n).1.pkt = m.pkt ++ gap ++ nb ∧ NB σ nb (labelsOf n) ∧
      (host (m.put gap) n).2 = nb.length ∧
      BS top (nxt σ n) (m.pkt ++ gap' ++ nb) (host (m.put gap) n).1.labels := by
  have ht : Table (m.put gap).pkt (m.put gap).labels := hb.table.append gap
  obtain ⟨ls1, tail, h1, h2, h3, h4⟩ := host_spec (m.put gap) n hn.1 ht
  have h1' : (host (m.put gap) n).1.pkt = m.pkt ++ gap ++ (encLabels ls1 ++ tail) := h1
  have h3' : (host (m.put gap) n).1.labels = m.labels ++
      (labelOffs (m.pkt.length + gap'.length) ls1).take (maxNumLabels - m.labels.length) := by
    rw [h3]; simp [Builder.put, hg]
  have hokn : OkLabels (labelsOf n) := hn.1.labels
  have hlen : (encLabels (labelsOf n)).length ≤ 255 := by
    rw [encLabels_length]; exact textOf_labelsOf_length n hn.1
  refine ⟨encLabels ls1 ++ tail, h1', ?_⟩
  generalize hlab : m.labels = labels at hb
  generalize hpk : m.pkt = pkt at hb
  cases hb with
  | fresh _ hp =>
    rw [← hpk] at hp
    have hgap := hs rfl
    subst hgap
    have hgap' : gap' = [] := List.length_eq_zero_iff.1 hg.symm
    subst hgap'
    have hcase : ls1 = labelsOf n ∧ tail = [0] := by
      rcases h4 with ⟨e1, e2, _⟩ | ⟨_, o, _, _, _, ho, _⟩
      · exact ⟨e1, e2⟩
      · simp only [Builder.put] at ho
        rw [hlab] at ho
        simp at ho
    obtain ⟨rfl, rfl⟩ := hcase
    rw [← hpk]
    have hdrop : (m.pkt ++ [] ++ (encLabels (labelsOf n) ++ [0])).drop 12 = encLabels (labelsOf n) ++ 0 :: [] := by
      rw [List.append_nil, ← hp, List.drop_left]
    refine ⟨rfl, h2, ?_⟩
    rw [h3', hlab]
    have hcount := length_le_127 _ hokn
    have hlo : ∀ (ls : List Bytes) (o : Nat), (labelOffs o ls).length = ls.length := by
      intro ls
      induction ls with
      | nil => intro o; rfl
      | cons l ls ih => intro o; simp [labelOffs, ih]
    have htake : (labelOffs (m.pkt.length + ([] : Bytes).length) (labelsOf n)).take (maxNumLabels - ([] : List Nat).length)
        = labelOffs 12 (labelsOf n) := by
      rw [List.take_of_length_le (by rw [hlo]; simp [maxNumLabels]; omega), hp]; rfl
    rw [htake, List.nil_append]
    refine .used (labelsOf n) _ _ hokn hn.2 hlen ⟨[], hdrop⟩ ?_ ?_
    · intro o ho
      obtain ⟨a, c, e1, e2, e3⟩ := (labelOffs_mem _ _ _).1 ho
      exact .inl ⟨a, c, e1, e2, e3⟩
    · obtain ⟨a, ha, _⟩ := hn.2
      exact ⟨a, ha, (labelOffs_mem _ _ _).2 ⟨a, [top], ha, by simp, rfl⟩⟩
  | used f _ _ g1 g2 g3 g4 g5 g6 =>
    subst hlab hpk
    obtain ⟨r, hr⟩ := g4
    have hkey : ∃ ls2 o b, labelsOf n = ls1 ++ ls2 ∧ ls2 ≠ [] ∧ o ∈ m.labels ∧ Entry m.pkt o ls2 b ∧ tail = ptrBytes o := by
      rcases h4 with ⟨_, _, hno⟩ | ⟨ls2, o, b, e1, e2, e3, e4, e5⟩
      · exfalso
        obtain ⟨a, ha, hmem⟩ := g6
        obtain ⟨a', ha', _⟩ := hn.2
        refine hno [top] ⟨a', ha'.symm⟩ (by simp) _ hmem 0 ?_
        exact (Entry.of_first hr g1 ha (by simp)).append gap
      · have hmem : o ∈ m.labels := e3
        have : ∃ own b', Entry m.pkt o own b' := by
          rcases g5 o hmem with ⟨a, c, x1, x2, rfl⟩ | ⟨own, b', he, _⟩
          · exact ⟨c, 0, Entry.of_first hr g1 x1 x2⟩
          · exact ⟨own, b', he⟩
        obtain ⟨own, b', he⟩ := this
        have : own = ls2 := (he.append gap).own_unique e4
        subst this
        exact ⟨own, o, b', e1, e2, hmem, he, e5⟩
    obtain ⟨ls2, o, b, e1, e2, e3, e4, e5⟩ := hkey
    have hbel2 : Below top ls2 := suffix_below hn.2 (by rw [e1]; exact List.suffix_append _ _) e2
    have htop2 : top ∈ ls2 := by obtain ⟨x, hx, _⟩ := hbel2; rw [hx]; simp
    have hfirst : ∃ a, f = a ++ ls2 ∧ o = 12 + (encLabels a).length := by
      rcases g5 o e3 with ⟨a, c, x1, x2, rfl⟩ | ⟨own, b', he, hnot⟩
      · have := (Entry.of_first hr g1 x1 x2).own_unique e4
        subst this
        exact ⟨a, x1, rfl⟩
      · have := he.own_unique e4
        subst this
        exact absurd htop2 hnot
    obtain ⟨a, hfa, hoa⟩ := hfirst
    have htop1 : top ∉ ls1 := by
      obtain ⟨x, hx, hx2⟩ := hn.2
      obtain ⟨y, hy, _⟩ := hbel2
      rw [hy, ← List.append_assoc, hx] at e1
      have := (List.append_inj' e1 rfl).1
      intro hc; apply hx2; rw [this]; simp [hc]
    refine ⟨⟨ls1, ls2, a, e1, hfa, e2, by rw [e5, hoa]⟩, h2, ?_⟩
    have hbs := BS.append (.used f m.pkt m.labels g1 g2 g3 ⟨r, hr⟩ g5 g6) (by simp) (gap' ++ (encLabels ls1 ++ tail))
    rw [← List.append_assoc] at hbs
    cases hbs with
    | used _ _ _ k1 k2 k3 k4 k5 k6 =>
      refine .used f _ _ k1 k2 k3 k4 ?_ ?_
      · intro p hp
        rw [h3', List.mem_append] at hp
        rcases hp with hp | hp
        · exact k5 p hp
        · right
          obtain ⟨x, c, hac, hcne, rfl⟩ := (labelOffs_mem _ _ _).1 (List.mem_of_mem_take hp)
          refine ⟨c, (UInt8.ofNat (o >>> 8)) ||| 0xc0, ⟨⟨[UInt8.ofNat o], ?_⟩, term_ptr o, ?_, hcne⟩, ?_⟩
          · rw [← List.length_append, List.drop_append, List.drop_eq_nil_of_le (by omega), List.nil_append]
            have : (m.pkt ++ gap').length + (encLabels x).length - (m.pkt ++ gap').length = (encLabels x).length := by omega
            rw [this, hac, encLabels_append, List.append_assoc, List.drop_left, e5]; rfl
          · intro l hl; exact hokn l (by rw [e1, hac]; simp [hl])
          · intro hc; exact htop1 (by rw [hac]; simp [hc])
      · obtain ⟨x, hx, hmem⟩ := k6
        exact ⟨x, hx, by rw [h3']; simp [hmem]⟩

theorem nxt_ne_none (σ n) : nxt σ n ≠ none := by simp [nxt]
theorem nxt_nxt (σ n k) : nxt (nxt σ n) k = nxt σ n := by simp [nxt]
theorem nxt_some (f : List Bytes) (k) : nxt (some f) k = some f := by simp [nxt]

theorem qd_BS (top σ) (m : Builder) (q : QSpec) (hb : BS top σ m.pkt m.labels) (hq : q.Ok top) :
    ∃ nb, (bstep m q.op).pkt = m.pkt ++ (nb ++ (putShort q.type ++ (putShort q.cls))) ∧
      NB σ nb (labelsOf q.name) ∧ BS top (nxt σ q.name) (bstep m q.op).pkt (bstep m q.op).labels := by
  obtain ⟨nb, h1, h2, _, h3⟩ := host_BS top σ { m with qd := m.qd + 1 } [] [] rfl q.name hb (fun _ => rfl) hq.name
  have hput : Builder.put { m with qd := m.qd + 1 } [] = { m with qd := m.qd + 1 } := by simp [Builder.put]
  rw [hput] at h1 h3
  have hp : (bstep m q.op).pkt = m.pkt ++ (nb ++ (putShort q.type ++ (putShort q.cls))) := by
    simp only [QSpec.op, bstep, messageQd, Builder.put, h1]; simp
  refine ⟨nb, hp, h2, ?_⟩
  have h3' : BS top (nxt σ q.name) (m.pkt ++ nb) (bstep m q.op).labels := by
    rw [List.append_nil] at h3; exact h3
  rw [hp, ← List.append_assoc]
  exact h3'.append (nxt_ne_none _ _) _

theorem rr_BS (top σ s) (m : Builder) (r : RSpec) (hb : BS top σ m.pkt m.labels) (hr : r.Ok top) :
    ∃ nb, (bstep m (.rr s r.name r.type r.cls r.ttl)).pkt
        = m.pkt ++ (nb ++ (putShort r.type ++ (putShort r.cls ++ putLong r.ttl))) ∧
      NB σ nb (labelsOf r.name) ∧ BS top (nxt σ r.name) (bstep m (.rr s r.name r.type r.cls r.ttl)).pkt
        (bstep m (.rr s r.name r.type r.cls r.ttl)).labels := by
  have : ∃ m' : Builder, m'.pkt = m.pkt ∧ m'.labels = m.labels ∧
      bstep m (.rr s r.name r.type r.cls r.ttl) = rrAppend m' r.name r.type r.cls r.ttl := by
    cases s
    · exact ⟨{ m with an := m.an + 1 }, rfl, rfl, rfl⟩
    · exact ⟨{ m with ns := m.ns + 1 }, rfl, rfl, rfl⟩
    · exact ⟨{ m with ar := m.ar + 1 }, rfl, rfl, rfl⟩
  obtain ⟨m', e1, e2, e3⟩ := this
  rw [e3]
  obtain ⟨nb, h1, h2, _, h3⟩ := host_BS top σ m' [] [] rfl r.name (by rw [e1, e2]; exact hb) (fun _ => rfl) hr.name
  have hput : m'.put [] = m' := by simp [Builder.put]
  rw [hput] at h1 h3
  have hp : (rrAppend m' r.name r.type r.cls r.ttl).pkt
      = m.pkt ++ (nb ++ (putShort r.type ++ (putShort r.cls ++ putLong r.ttl))) := by
    simp only [rrAppend, Builder.put, h1, e1]; simp
  refine ⟨nb, hp, h2, ?_⟩
  have h3' : BS top (nxt σ r.name) (m.pkt ++ nb) (rrAppend m' r.name r.type r.cls r.ttl).labels := by
    rw [e1, List.append_nil] at h3; exact h3
  rw [hp, ← List.append_assoc]
  exact h3'.append (nxt_ne_none _ _) _

theorem data_BS (top f) (m : Builder) (d : RData) (hb : BS top (some f) m.pkt m.labels)
    (hn : ∀ n ∈ d.names, GoodName top n)
    (hraw : ∀ x, d = .raw x → m.pkt.length + x.length ≤ 4096) :
    ∃ db, (bstep m d.op).pkt = m.pkt ++ db ∧ DataBytes (some f) d db ∧
      BS top (some f) (bstep m d.op).pkt (bstep m d.op).labels := by
  cases d with
  | a ip =>
    refine ⟨putShort 4 ++ ip.toList, by simp [RData.op, bstep, rdataIpv4, Builder.put], .a ip, ?_⟩
    have := hb.append (by simp) (putShort 4 ++ ip.toList)
    simpa [RData.op, bstep, rdataIpv4, Builder.put] using this
  | aaaa ip =>
    refine ⟨putShort 16 ++ ip.toList, by simp [RData.op, bstep, rdataIpv6, Builder.put], .aaaa ip, ?_⟩
    have := hb.append (by simp) (putShort 16 ++ ip.toList)
    simpa [RData.op, bstep, rdataIpv6, Builder.put] using this
  | raw x =>
    have hx := hraw x rfl
    refine ⟨putShort x.length ++ x, ?_, .raw x, ?_⟩
    · simp only [RData.op, bstep, rdataRaw]
      rw [if_neg (by omega)]; simp [Builder.put]
    · have := hb.append (by simp) (putShort x.length ++ x)
      simp only [RData.op, bstep, rdataRaw]
      rw [if_neg (by omega)]
      simpa [Builder.put] using this
  | name n =>
    have hgn := hn n (by simp [RData.names])
    obtain ⟨out, h1, _, h3⟩ := rdataName_pkt m n
    obtain ⟨nb, g1, g2, _, g3⟩ := host_BS top (some f) m [0, 0] (putShort out.length) rfl n hb (by simp) hgn
    have : nb = out := by rw [h1] at g1; exact (List.append_cancel_left g1).symm
    subst this
    refine ⟨putShort nb.length ++ nb, ?_, .name n nb g2, ?_⟩
    · simp only [RData.op, bstep]; rw [h3]; simp
    · rw [nxt_some] at g3
      simp only [RData.op, bstep]; rw [h3]; exact g3
  | srv p w o n =>
    have hgn := hn n (by simp [RData.names])
    obtain ⟨out, h1, _, h3⟩ := rdataSrv_pkt m p w o n
    have hput : (((m.put [0, 0]).put (putShort p)).put (putShort w)).put (putShort o)
        = m.put ([0, 0] ++ putShort p ++ putShort w ++ putShort o) := by simp [Builder.put]
    obtain ⟨nb, g1, g2, _, g3⟩ := host_BS top (some f) m ([0, 0] ++ putShort p ++ putShort w ++ putShort o)
      (putShort (out.length + 6) ++ putShort p ++ putShort w ++ putShort o) (by simp [putShort]) n hb (by simp) hgn
    have : nb = out := by
      rw [hput, g1] at h1
      have : m.pkt ++ ([0, 0] ++ putShort p ++ putShort w ++ putShort o) ++ nb
          = m.pkt ++ ([0, 0] ++ putShort p ++ putShort w ++ putShort o) ++ out := by
        rw [h1]; simp
      exact List.append_cancel_left this
    subst this
    refine ⟨putShort (nb.length + 6) ++ (putShort p ++ (putShort w ++ (putShort o ++ nb))), ?_, .srv p w o n nb g2, ?_⟩
    · simp only [RData.op, bstep]; rw [h3]; simp
    · rw [nxt_some] at g3
      have hl : (bstep m (.srv p w o n)).labels = (host (m.put ([0, 0] ++ putShort p ++ putShort w ++ putShort o)) n).1.labels := by
        rw [← hput]; rfl
      simp only [RData.op]
      rw [hl]
      simp only [bstep]
      rw [h3]
      have e : m.pkt ++ putShort (nb.length + 6) ++ (putShort p ++ putShort w ++ putShort o ++ nb)
          = m.pkt ++ (putShort (nb.length + 6) ++ putShort p ++ putShort w ++ putShort o) ++ nb := by simp
      rw [e]; exact g3

theorem brun_append (m : Builder) (a b : List BOp) : brun m (a ++ b) = brun (brun m a) b := by
  simp [brun]

theorem brun_len_le (m : Builder) (ops : List BOp) : m.pkt.length ≤ (brun m ops).pkt.length := by
  obtain ⟨q, hq⟩ := brun_prefix m ops
  rw [hq]; simp

theorem qs_BS (top) : ∀ (qs : List QSpec) (σ) (m : Builder), BS top σ m.pkt m.labels → (∀ q ∈ qs, q.Ok top) →
    ∃ bs σ', (brun m (qs.map QSpec.op)).pkt = m.pkt ++ bs ∧ QsBytes σ qs bs σ' ∧
      BS top σ' (brun m (qs.map QSpec.op)).pkt (brun m (qs.map QSpec.op)).labels := by
  intro qs
  induction qs with
  | nil => intro σ m hb _; exact ⟨[], σ, by simp [brun], .nil σ, hb⟩
  | cons q qs ih =>
    intro σ m hb hq
    obtain ⟨nb, h1, h2, h3⟩ := qd_BS top σ m q hb (hq q (by simp))
    obtain ⟨bs, σ', g1, g2, g3⟩ := ih _ _ h3 (fun x hx => hq x (by simp [hx]))
    refine ⟨_, σ', ?_, .cons σ q qs nb bs σ' h2 g2, g3⟩
    rw [List.map_cons, brun_cons, g1, h1]; simp

theorem rs_BS (top s) : ∀ (rs : List RSpec) (σ) (m : Builder), BS top σ m.pkt m.labels → (∀ r ∈ rs, r.Ok top) →
    (∀ pre d post, rs.flatMap (RSpec.ops s) = pre ++ BOp.raw d :: post → (brun m pre).pkt.length + d.length ≤ 4096) →
    ∃ bs σ', (brun m (rs.flatMap (RSpec.ops s))).pkt = m.pkt ++ bs ∧ RsBytes σ rs bs σ' ∧
      BS top σ' (brun m (rs.flatMap (RSpec.ops s))).pkt (brun m (rs.flatMap (RSpec.ops s))).labels := by
  intro rs
  induction rs with
  | nil => intro σ m hb _ _; exact ⟨[], σ, by simp [brun], .nil σ, hb⟩
  | cons r rs ih =>
    intro σ m hb hr hraw
    obtain ⟨nb, h1, h2, h3⟩ := rr_BS top σ s m r hb (hr r (by simp))
    have hops : (r :: rs).flatMap (RSpec.ops s)
        = .rr s r.name r.type r.cls r.ttl :: r.data.op :: rs.flatMap (RSpec.ops s) := by
      simp [RSpec.ops]
    generalize hm1 : bstep m (.rr s r.name r.type r.cls r.ttl) = m1 at h1 h3
    obtain ⟨db, d1, d2, d3⟩ := data_BS top _ m1 r.data h3 (hr r (by simp)).names (by
      intro x hx
      have := hraw [.rr s r.name r.type r.cls r.ttl] x (rs.flatMap (RSpec.ops s)) (by rw [hops, hx]; rfl)
      rw [← hm1]; exact this)
    obtain ⟨bs, σ', g1, g2, g3⟩ := ih _ (bstep m1 r.data.op) d3 (fun x hx => hr x (by simp [hx])) (by
      intro pre d post he
      have := hraw (.rr s r.name r.type r.cls r.ttl :: r.data.op :: pre) d post (by rw [hops, he]; rfl)
      rw [brun_cons, brun_cons, hm1] at this
      exact this)
    have hrun : brun m ((r :: rs).flatMap (RSpec.ops s)) = brun (bstep m1 r.data.op) (rs.flatMap (RSpec.ops s)) := by
      rw [hops, brun_cons, brun_cons, hm1]
    refine ⟨_, σ', ?_, .cons σ r rs nb db bs σ' h2 d2 g2, ?_⟩
    · rw [hrun, g1, d1, h1]; simp
    · rw [hrun]; exact g3

/-! ### The parser reads that shape -/

/-- The buffer starts with the packet; anything may follow. -/
structure Holds (b : RBuf) (P : Bytes) : Prop where
  size : P.length ≤ b.size
  bytes : ∀ i, i < P.length → b.at_ i = P.getD i 0

theorem lt_of_drop {P : Bytes} {i : Nat} {c : UInt8} {r : Bytes} (h : P.drop i = c :: r) : i < P.length := by
  by_cases hlt : i < P.length
  · exact hlt
  · rw [List.drop_eq_nil_of_le (by omega)] at h; simp at h

theorem Holds.rd {b P} (h : Holds b P) {i : Nat} {c r} (hd : P.drop i = c :: r) : b.rd i = .ok c := by
  have hi := lt_of_drop hd
  unfold RBuf.rd
  rw [if_pos (by have := h.size; omega), h.bytes i hi, getD_of_drop hd]

theorem Holds.rdN {b P} (h : Holds b P) {i : Nat} {a r : Bytes} (hd : P.drop i = a ++ r) : b.rdN i a.length = .ok a := by
  unfold RBuf.rdN
  by_cases ha : a.length = 0
  · rw [if_pos ha, List.length_eq_zero_iff.1 ha]
  · rw [if_neg ha]
    have hlen : (P.drop i).length = (a ++ r).length := by rw [hd]
    simp only [List.length_drop, List.length_append] at hlen
    have hle : i + a.length ≤ P.length := by omega
    rw [if_pos (by have := h.size; omega)]
    congr 1
    apply List.ext_getElem
    · simp
    · intro k hk hk'
      simp only [List.getElem_map, List.getElem_range]
      rw [h.bytes _ (by omega), getD_drop, hd]
      simp [List.getD_eq_getElem?_getD, List.getElem?_append, hk']

theorem Holds.short {b P} (h : Holds b P) {i v : Nat} {r} (hd : P.drop i = putShort v ++ r) (hv : v < 65536) :
    b.short i = .ok v := by
  have hd0 : P.drop i = UInt8.ofNat (v >>> 8) :: UInt8.ofNat v :: r := hd
  have r0 := h.rd hd0
  have r1 := h.rd (drop_cons_succ hd0)
  unfold RBuf.short
  rw [r0, r1]
  show PRes.ok _ = PRes.ok _
  rw [short2_eq]
  have := putShort_value v
  rw [Nat.mod_eq_of_lt hv] at this
  exact congrArg PRes.ok this

theorem Holds.long {b P} (h : Holds b P) {i v : Nat} {r} (hd : P.drop i = putLong v ++ r) (hv : v < 4294967296) :
    b.long i = .ok v := by
  have hd0 : P.drop i = UInt8.ofNat (v >>> 24) :: UInt8.ofNat (v >>> 16) :: UInt8.ofNat (v >>> 8) :: UInt8.ofNat v :: r := hd
  have hd1 := drop_cons_succ hd0
  have hd2 := drop_cons_succ hd1
  have hd3 := drop_cons_succ hd2
  unfold RBuf.long
  rw [h.rd hd0, h.rd hd1, h.rd hd2, h.rd hd3]
  show PRes.ok _ = PRes.ok _
  rw [long4_eq]
  have := putLong_value v
  rw [Nat.mod_eq_of_lt hv] at this
  exact congrArg PRes.ok this

theorem ok_bind {α β : Type} (a : α) (f : α → PRes β) : (PRes.ok a >>= f) = f a := rfl

theorem skip_none {b P} (h : Holds b P) {len label : Nat} {c r} (hd : P.drop label = c :: r) (hc : isPtr c = false)
    (fuel : Nat) (prev : Nat) (hf : 1 ≤ fuel) : skipPtrF b len fuel prev label = .ok label := by
  obtain ⟨f, rfl⟩ : ∃ f, fuel = f + 1 := ⟨fuel - 1, by omega⟩
  unfold skipPtrF
  rw [h.rd hd]
  simp [ok_bind, hc]

theorem ldecomp_ptr (t : Nat) (h : t < 4096) : ldecomp ((UInt8.ofNat (t >>> 8)) ||| 0xc0) (UInt8.ofNat t) = t := by
  have key : ∀ k : Fin 64, ((0xc0 ^^^ ((UInt8.ofNat k.val) ||| 0xc0)) : UInt8).toNat = k.val := by decide +kernel
  have h8 : t >>> 8 = t / 256 := by rw [Nat.shiftRight_eq_div_pow]
  have := key ⟨t >>> 8, by rw [h8]; omega⟩
  simp only [h8] at this
  unfold ldecomp
  simp only [byte_or, h8]
  rw [this]
  have h2 : (UInt8.ofNat t).toNat = t % 256 := by simp
  rw [h2]
  have : t / 256 * 256 + t % 256 = t := by omega
  rw [this, if_neg (by omega)]

theorem copy_run {b P} (h : Holds b P) (hP : P.length ≤ 65535) (len : Nat) :
    ∀ (ls : List Bytes) (label fuel : Nat) (name r : Bytes),
    P.drop label = encLabels ls ++ 0 :: r → OkLabels ls → ls.length + 1 ≤ fuel →
    name.length + (textOf ls).length ≤ 255 → len + (name.length + (textOf ls).length) + 1 ≤ 65535 →
    copyLabelsF b structCap len fuel label name = .ok (name ++ textOf ls) := by
  intro ls
  induction ls with
  | nil =>
    intro label fuel name r hd _ hf _ _
    obtain ⟨f, rfl⟩ : ∃ f, fuel = f + 1 := ⟨fuel - 1, by omega⟩
    have hd' : P.drop label = 0 :: r := hd
    unfold copyLabelsF
    rw [h.rd hd']
    simp [ok_bind, textOf]
  | cons l ls ih =>
    intro label fuel name r hd hok hf hn hl
    obtain ⟨f, rfl⟩ : ∃ f, fuel = f + 1 := ⟨fuel - 1, by omega⟩
    have hd' := hd
    rw [encLabels_cons, List.cons_append, List.append_assoc] at hd'
    have hlb := lenByte l (hok l (by simp))
    have htxt : (textOf (l :: ls)).length = l.length + 1 + (textOf ls).length := by
      simp [textOf]; omega
    rw [htxt] at hn hl
    have hd1 := drop_cons_succ hd'
    have hlenP : label + 1 + l.length ≤ P.length := by
      have : (P.drop (label + 1)).length = (l ++ (encLabels ls ++ 0 :: r)).length := by rw [hd1]
      simp only [List.length_drop, List.length_append, List.length_cons] at this
      omega
    unfold copyLabelsF
    rw [h.rd hd']
    simp only [ok_bind, hlb.2.1, if_false]
    rw [skip_none h hd' hlb.2.2 _ _ (by decide), ok_bind, h.rd hd', ok_bind]
    simp only [hlb.1]
    rw [if_neg (by simp only [maxPacketLen]; omega), h.rdN hd1, ok_bind]
    unfold wr
    rw [if_pos (by simp only [structCap]; omega), ok_bind]
    have hd2 := drop_append_len hd1
    rw [ih (label + 1 + l.length) f (name ++ l ++ [0x2E]) r hd2 (fun a ha => hok a (by simp [ha]))
      (by simp at hf; omega) (by simp only [List.length_append, List.length_cons, List.length_nil]; omega)
      (by simp only [List.length_append, List.length_cons, List.length_nil]; omega)]
    simp [textOf]

theorem copy_prefix {b P} (h : Holds b P) (hP : P.length ≤ 65535) (len : Nat) (target : Nat) (ls2 : List Bytes)
    (r2 : Bytes) (ht : target < 4096) (htl : target ≤ len)
    (hd2 : P.drop target = encLabels ls2 ++ 0 :: r2) (hn2 : ls2 ≠ []) (hok2 : OkLabels ls2) :
    ∀ (ls1 : List Bytes) (label fuel : Nat) (name r : Bytes),
    P.drop label = encLabels ls1 ++ (ptrBytes target ++ r) → OkLabels ls1 → ls1.length + ls2.length + 1 ≤ fuel →
    name.length + (textOf (ls1 ++ ls2)).length ≤ 255 → len + (name.length + (textOf (ls1 ++ ls2)).length) + 1 ≤ 65535 →
    copyLabelsF b structCap len fuel label name = .ok (name ++ textOf (ls1 ++ ls2)) := by
  intro ls1
  induction ls1 with
  | nil =>
    intro label fuel name r hd _ hf hn hl
    obtain ⟨f, rfl⟩ : ∃ f, fuel = f + 1 := ⟨fuel - 1, by omega⟩
    have hgoal := copy_run h hP len ls2 target (f + 1) name r2 hd2 hok2 (by simp at hf; omega) hn hl
    rw [List.nil_append, ← hgoal]
    cases ls2 with
    | nil => exact absurd rfl hn2
    | cons l ls2 =>
      have hd2' := hd2
      rw [encLabels_cons, List.cons_append] at hd2'
      have hlb := lenByte l (hok2 l (by simp))
      have hd' : P.drop label = ((UInt8.ofNat (target >>> 8)) ||| 0xc0) :: UInt8.ofNat target :: r := hd
      have hp := ptr_isPtr (UInt8.ofNat (target >>> 8))
      have hne : ((UInt8.ofNat (target >>> 8)) ||| 0xc0) ≠ 0 := by
        intro hc; rw [hc] at hp; simp [isPtr] at hp
      have hskip : skipPtrF b len ptrFuel 0 label = .ok target := by
        show skipPtrF b len (4099 + 1) 0 label = .ok target
        unfold skipPtrF
        rw [h.rd hd']
        simp only [ok_bind, hp, if_true]
        rw [h.rd (drop_cons_succ hd')]
        simp only [ok_bind, ldecomp_ptr target ht]
        rw [if_neg (by omega), h.rd hd2']
        simp only [ok_bind, hlb.2.1, if_false]
        exact skip_none h hd2' hlb.2.2 _ _ (by decide)
      unfold copyLabelsF
      rw [h.rd hd', h.rd hd2']
      simp only [ok_bind, hne, hlb.2.1, if_false]
      rw [hskip, skip_none h hd2' hlb.2.2 _ _ (by decide)]
  | cons l ls ih =>
    intro label fuel name r hd hok hf hn hl
    obtain ⟨f, rfl⟩ : ∃ f, fuel = f + 1 := ⟨fuel - 1, by omega⟩
    have hd' := hd
    rw [encLabels_cons, List.cons_append, List.append_assoc] at hd'
    have hlb := lenByte l (hok l (by simp))
    have htxt : (textOf (l :: ls ++ ls2)).length = l.length + 1 + (textOf (ls ++ ls2)).length := by
      simp [textOf]; omega
    rw [htxt] at hn hl
    have hd1 := drop_cons_succ hd'
    have hlenP : label + 1 + l.length ≤ P.length := by
      have : (P.drop (label + 1)).length = (l ++ (encLabels ls ++ (ptrBytes target ++ r))).length := by rw [hd1]
      simp only [List.length_drop, List.length_append, ptrBytes, List.length_cons] at this
      omega
    unfold copyLabelsF
    rw [h.rd hd']
    simp only [ok_bind, hlb.2.1, if_false]
    rw [skip_none h hd' hlb.2.2 _ _ (by decide), ok_bind, h.rd hd', ok_bind]
    simp only [hlb.1]
    rw [if_neg (by simp only [maxPacketLen]; omega), h.rdN hd1, ok_bind]
    unfold wr
    rw [if_pos (by simp only [structCap]; omega), ok_bind]
    have hd3 := drop_append_len hd1
    rw [ih (label + 1 + l.length) f (name ++ l ++ [0x2E]) r hd3 (fun a ha => hok a (by simp [ha]))
      (by simp at hf; omega) (by simp only [List.length_append, List.length_cons, List.length_nil]; omega)
      (by simp only [List.length_append, List.length_cons, List.length_nil]; omega)]
    simp [textOf]

theorem advance_run {b P} (h : Holds b P) (c : UInt8) (hc : Term c) :
    ∀ (ls : List Bytes) (label fuel : Nat) (r : Bytes), P.drop label = encLabels ls ++ c :: r → OkLabels ls →
    ls.length + 1 ≤ fuel →
    advanceF b fuel label = .ok (label + (encLabels ls).length + (if c = 0 then 1 else 2)) := by
  intro ls
  induction ls with
  | nil =>
    intro label fuel r hd _ hf
    obtain ⟨f, rfl⟩ : ∃ f, fuel = f + 1 := ⟨fuel - 1, by omega⟩
    have hd' : P.drop label = c :: r := hd
    unfold advanceF
    rw [h.rd hd', ok_bind]
    by_cases h0 : c = 0
    · simp [h0, encLabels]
    · simp [h0, encLabels, hc.resolve_left h0]
  | cons l ls ih =>
    intro label fuel r hd hok hf
    obtain ⟨f, rfl⟩ : ∃ f, fuel = f + 1 := ⟨fuel - 1, by omega⟩
    have hd' := hd
    rw [encLabels_cons, List.cons_append, List.append_assoc] at hd'
    have hlb := lenByte l (hok l (by simp))
    unfold advanceF
    rw [h.rd hd', ok_bind, if_neg hlb.2.1, hlb.2.2]
    simp only [Bool.false_eq_true, if_false, hlb.1]
    have hd2 := drop_append_len (drop_cons_succ hd')
    have e : label + 1 + l.length = label + l.length + 1 := by omega
    rw [e] at hd2
    rw [ih _ f r hd2 (fun a ha => hok a (by simp [ha])) (by simp at hf; omega), encLabels_cons]
    congr 1
    simp only [List.length_cons, List.length_append]; omega

/-- Parser states matching the shape. -/
def PS (P : Bytes) : Option (List Bytes) → PState → Prop
  | none, s => s.cache = [] ∧ 12 ≤ s.len ∧ s.pos = 12
  | some f, s => OkLabels f ∧ (encLabels f).length ≤ 255 ∧ 12 + (encLabels f).length ≤ s.len ∧
      ∃ r, P.drop 12 = encLabels f ++ 0 :: r

theorem PS.congr {P σ s s'} (h : PS P σ s) (hs : σ ≠ none) (hl : s.len ≤ s'.len) : PS P σ s' := by
  cases σ with
  | none => exact absurd rfl hs
  | some f => exact ⟨h.1, h.2.1, Nat.le_trans h.2.2.1 hl, h.2.2.2⟩

theorem drop_fuel {b P} (h : Holds b P) {i : Nat} {ls : List Bytes} {c : UInt8} {r : Bytes}
    (hd : P.drop i = encLabels ls ++ c :: r) (hok : OkLabels ls) : ls.length + 1 ≤ b.size + 1 := by
  have h1 := length_le_127 ls hok
  have h2 := h.size
  have h3 := congrArg List.length hd
  simp only [List.length_drop, List.length_append, List.length_cons] at h3
  omega

theorem parseLabel_NB {b P} (h : Holds b P) (hP : P.length ≤ 65535) (σ) (s : PState)
    (hs : PS P σ s) (nb ls rest) (hnb : NB σ nb ls) (hd : P.drop s.pos = nb ++ rest) (hok : OkLabels ls)
    (htxt : (textOf ls).length ≤ 255) (hnul : 0 ∉ textOf ls) (hl : s.len + ((textOf ls).length + 1) ≤ 65534) :
    ∃ s', parseLabel b structCap s = .ok (textOf ls, s') ∧ s'.pos = s.pos + nb.length ∧ s.len ≤ s'.len ∧
      s'.len ≤ s.len + ((textOf ls).length + 1) ∧ PS P (some (σ.getD ls)) s' := by
  have hcount := length_le_127 ls hok
  rw [encLabels_length] at hcount
  have hparts : copyLabelsF b structCap s.len copyFuel s.pos [] = .ok (textOf ls) ∧
      advanceF b (b.size + 1) s.pos = .ok (s.pos + nb.length) := by
    cases σ with
    | none =>
      have hnb' : nb = encLabels ls ++ [0] := hnb
      rw [hnb', List.append_assoc] at hd
      constructor
      · have := copy_run h hP s.len ls s.pos copyFuel [] rest hd hok (by simp only [copyFuel]; omega)
          (by simpa using htxt) (by simp only [List.length_nil]; omega)
        simpa using this
      · have := advance_run h 0 (.inl rfl) ls s.pos (b.size + 1) rest hd hok (drop_fuel h hd hok)
        rw [this, hnb']; simp; omega
    | some f =>
      obtain ⟨ls1, ls2, a, e1, e2, e3, e4⟩ := hnb
      obtain ⟨k1, k2, k3, r, k4⟩ := hs
      have hok1 : OkLabels ls1 := fun x hx => hok x (by rw [e1]; simp [hx])
      have hok2 : OkLabels ls2 := fun x hx => hok x (by rw [e1]; simp [hx])
      have hal : (encLabels a).length ≤ (encLabels f).length := by
        rw [e2, encLabels_append, List.length_append]; omega
      have hdt : P.drop (12 + (encLabels a).length) = encLabels ls2 ++ 0 :: r := by
        apply drop_append_len
        rw [k4, e2, encLabels_append, List.append_assoc]
      rw [e4, List.append_assoc] at hd
      have hlen12 : ls1.length + ls2.length = ls.length := by rw [e1]; simp
      constructor
      · have := copy_prefix h hP s.len (12 + (encLabels a).length) ls2 r (by omega) (by omega) hdt e3 hok2
          ls1 s.pos copyFuel [] rest hd hok1 (by simp only [copyFuel]; omega)
          (by rw [← e1]; simpa using htxt) (by rw [← e1]; simp only [List.length_nil]; omega)
        rw [← e1] at this
        simpa using this
      · have hd' : P.drop s.pos = encLabels ls1 ++ ((UInt8.ofNat ((12 + (encLabels a).length) >>> 8)) ||| 0xc0)
            :: (UInt8.ofNat (12 + (encLabels a).length) :: rest) := hd
        have := advance_run h _ (term_ptr _) ls1 s.pos (b.size + 1) _ hd' hok1 (drop_fuel h hd' hok1)
        have hp := ptr_isPtr (UInt8.ofNat ((12 + (encLabels a).length) >>> 8))
        have hne : ((UInt8.ofNat ((12 + (encLabels a).length) >>> 8)) ||| 0xc0) ≠ 0 := by
          intro hc; rw [hc] at hp; simp [isPtr] at hp
        rw [this, if_neg hne, e4]; simp [ptrBytes]; omega
  unfold parseLabel
  rw [if_neg (by simp only [maxPacketLen]; omega), hparts.1, ok_bind, hparts.2, ok_bind]
  unfold wr
  rw [if_pos (by simp only [structCap]; omega), ok_bind]
  simp only [cstr_of_nul_free hnul]
  have hfinal : ∀ s' : PState, s.len ≤ s'.len → (σ = none → s.len + ((textOf ls).length + 1) ≤ s'.len) →
      PS P (some (σ.getD ls)) s' := by
    intro s' hle hnone
    cases σ with
    | some f => exact hs.congr (by simp) hle
    | none =>
      have := hnone rfl
      obtain ⟨q1, q2, q3⟩ := hs
      have hnb' : nb = encLabels ls ++ [0] := hnb
      rw [hnb', List.append_assoc, q3] at hd
      refine ⟨hok, by rw [Option.getD_none, encLabels_length]; exact htxt, ?_, rest, hd⟩
      rw [Option.getD_none, encLabels_length]; omega
  by_cases hmem : textOf ls ∈ s.cache
  · rw [if_pos hmem]
    refine ⟨_, rfl, rfl, Nat.le_refl _, Nat.le_add_right _ _, hfinal _ (Nat.le_refl _) ?_⟩
    intro hn
    subst hn
    rw [hs.1] at hmem; simp at hmem
  · rw [if_neg hmem, cacheName_eq]
    exact ⟨_, rfl, rfl, by simp only; omega, by simp only; omega, hfinal _ (by simp only; omega) (by intro _; simp only; omega)⟩

theorem textOf_nul (n : Bytes) (h : HostName n) : 0 ∉ canon n := by
  unfold canon labelsOf
  split
  · simp [textOf]
  · unfold textOf
    rw [splitDots_total]
    intro hc
    simp only [List.mem_append, List.mem_singleton] at hc
    rcases hc with hc | hc
    · apply h.nul
      unfold stripDot at hc
      split at hc
      · exact List.dropLast_subset _ hc
      · exact hc
    · cases hc

theorem parseLabel_name {b P} (h : Holds b P) (hP : P.length ≤ 65535) (σ) (s : PState)
    (hs : PS P σ s) (nb rest n) (hnb : NB σ nb (labelsOf n)) (hd : P.drop s.pos = nb ++ rest)
    (top) (hn : GoodName top n) (hl : s.len + nameCost n ≤ 65534) :
    ∃ s', parseLabel b structCap s = .ok (canon n, s') ∧ s'.pos = s.pos + nb.length ∧ s.len ≤ s'.len ∧
      s'.len ≤ s.len + nameCost n ∧ PS P (nxt σ n) s' := by
  exact parseLabel_NB h hP σ s hs nb _ rest hnb hd hn.1.labels (textOf_labelsOf_length n hn.1)
    (textOf_nul n hn.1) hl

theorem parseQds_ok {b P} (h : Holds b P) (hP : P.length ≤ 65535) (top) {σ qs bs σ'}
    (hb : QsBytes σ qs bs σ') : ∀ (s : PState) (slot : Nat) (rest : Bytes), (∀ q ∈ qs, q.Ok top) →
    (qs ≠ [] → PS P σ s) → P.drop s.pos = bs ++ rest → slot + 16 * qs.length ≤ 65534 →
    s.len + (qs.map fun q => nameCost q.name).sum ≤ 65534 →
    ∃ s', parseQds b structCap slot qs.length s = .ok (qs.map QSpec.seen, s') ∧ s'.pos = s.pos + bs.length ∧
      s.len ≤ s'.len ∧ s'.len ≤ s.len + (qs.map fun q => nameCost q.name).sum ∧
      (qs ≠ [] → PS P σ' s') ∧ (qs = [] → σ' = σ ∧ s' = s) ∧ (qs ≠ [] → σ' ≠ none) := by
  induction hb with
  | nil σ => intro s slot rest _ _ _ _ _; exact ⟨s, by simp [parseQds], by simp, by simp, by simp, by simp, by simp, by simp⟩
  | cons σ q qs nb bs σ' hnb hqs ih =>
    intro s slot rest hok hps hd hslot hl
    have hq := hok q (by simp)
    simp only [List.map_cons, List.sum_cons, List.length_cons] at hl hslot
    rw [List.append_assoc] at hd
    obtain ⟨s1, p1, p2, p3, p4, p5⟩ := parseLabel_name h hP σ s (hps (by simp)) nb _ q.name hnb hd top hq.name (by omega)
    have hd1 := drop_append_len hd
    rw [← p2, List.append_assoc] at hd1
    have hd2 : P.drop (s1.pos + 2) = putShort q.cls ++ (bs ++ rest) := by
      have := drop_append_len hd1
      simpa [putShort] using this
    have hd3 : P.drop (s1.pos + 4) = bs ++ rest := by
      have := drop_append_len hd2
      simpa [putShort] using this
    have hps1 : PS P (nxt σ q.name) { s1 with pos := s1.pos + 4 } := p5.congr (nxt_ne_none _ _) (Nat.le_refl _)
    obtain ⟨s2, q1, q2, q3, q4, q5, q6, q7⟩ := ih { s1 with pos := s1.pos + 4 } (slot + 16) rest
      (fun x hx => hok x (by simp [hx])) (fun _ => hps1) hd3 (by omega) (by simp only; omega)
    refine ⟨s2, ?_, ?_, by simp only at q3; omega, ?_, ?_, by simp, ?_⟩
    · simp only [List.length_cons]
      unfold parseQds
      rw [p1, ok_bind]
      unfold wr
      simp only
      rw [if_pos (by simp only [structCap]; omega), ok_bind, h.short hd1 hq.type, ok_bind, h.short hd2 hq.cls, ok_bind,
        q1, ok_bind]
      rfl
    · rw [q2]; simp only [p2, List.length_append, putShort, List.length_cons, List.length_nil]; omega
    · simp only [List.map_cons, List.sum_cons]; simp only at q4; omega
    · intro _
      by_cases hq0 : qs = []
      · obtain ⟨e1, e2⟩ := q6 hq0
        rw [e1, e2]; exact hps1
      · exact q5 hq0
    · intro _
      by_cases hq0 : qs = []
      · rw [(q6 hq0).1]; exact nxt_ne_none _ _
      · exact q7 hq0

theorem NB_length {f nb ls} (h : NB (some f) nb ls) : nb.length ≤ (textOf ls).length + 1 := by
  obtain ⟨ls1, ls2, a, e1, e2, e3, e4⟩ := h
  rw [← encLabels_length, e1, e4, encLabels_append]
  have : 1 ≤ (encLabels ls2).length := by
    cases ls2 with
    | nil => exact absurd rfl e3
    | cons l ls2 => rw [encLabels_cons]; simp
  simp only [List.length_append, ptrBytes, List.length_cons, List.length_nil]; omega

theorem parseRr_ok {b P} (h : Holds b P) (hP : P.length ≤ 65535) (top) (σ) (r : RSpec)
    (nb db rest) (hr : r.Ok top) (s : PState) (slot : Nat) (hs : PS P σ s) (hnb : NB σ nb (labelsOf r.name))
    (hdb : DataBytes (nxt σ r.name) r.data db)
    (hd : P.drop s.pos = nb ++ (putShort r.type ++ (putShort r.cls ++ (putLong r.ttl ++ (db ++ rest)))))
    (hslot : slot + 64 ≤ 65534) (hl : s.len + r.cost ≤ 65534) :
    ∃ s', parseRr b structCap slot s = .ok (r.seen, s') ∧ s'.pos = s.pos + nb.length + 8 + db.length ∧
      s.len ≤ s'.len ∧ s'.len ≤ s.len + r.cost ∧ PS P (nxt σ r.name) s' := by
  have hcost : r.cost = nameCost r.name + r.data.cost := rfl
  obtain ⟨s1, p1, p2, p3, p4, p5⟩ := parseLabel_name h hP σ s hs nb _ r.name hnb hd top hr.name (by omega)
  have hd1 := drop_append_len hd
  rw [← p2] at hd1
  have hd2 : P.drop (s1.pos + 2) = putShort r.cls ++ (putLong r.ttl ++ (db ++ rest)) := by
    have := drop_append_len hd1
    simpa [putShort] using this
  have hd3 : P.drop (s1.pos + 4) = putLong r.ttl ++ (db ++ rest) := by
    have := drop_append_len hd2
    simpa [putShort] using this
  have hd4 : P.drop (s1.pos + 8) = db ++ rest := by
    have := drop_append_len hd3
    simpa [putLong] using this
  obtain ⟨f, hf⟩ : ∃ f, nxt σ r.name = some f := ⟨_, rfl⟩
  rw [hf] at hdb p5 ⊢
  have hposlen : s1.pos + 8 + db.length ≤ P.length := by
    have : (P.drop (s1.pos + 8)).length = (db ++ rest).length := by rw [hd4]
    simp only [List.length_drop, List.length_append] at this
    have h8 : s1.pos + 8 ≤ P.length ∨ db.length = 0 := by omega
    rcases h8 with h8 | h8
    · omega
    · exfalso
      generalize r.data = d at hdb
      cases hdb <;> simp [putShort] at h8
  unfold parseRr
  rw [p1, ok_bind]
  unfold wr
  simp only
  rw [if_pos (by simp only [structCap]; omega), ok_bind, h.short hd1 hr.type, ok_bind, h.short hd2 hr.cls, ok_bind,
    h.long hd3 hr.ttl, ok_bind]
  have hfits := hr.fits
  have hnames := hr.names
  obtain ⟨name, type, cls, ttl, data⟩ := r
  simp only at *
  cases hdb with
  | a ip =>
    rw [List.append_assoc] at hd4
    simp only [RData.Fits] at hfits
    subst hfits
    have hd5 : P.drop (s1.pos + 10) = ip.toList ++ rest := by
      have := drop_append_len hd4
      simpa [putShort] using this
    simp only [RData.cost] at hcost
    have hlen4 : ip.toList.length = 4 := by simp
    simp only [List.length_append, hlen4] at hposlen
    simp only [putShort, List.length_cons, List.length_nil] at hposlen
    rw [h.short hd4 (by decide), ok_bind, if_neg (by simp only [maxPacketLen]; omega)]
    have hr4 := h.rdN hd5
    rw [hlen4] at hr4
    simp only [isNameType, Nat.reduceBEq, Bool.or_self, Bool.false_eq_true, if_false, Nat.reduceEqDiff, if_true]
    rw [if_pos (by simp only [structCap]; omega), ok_bind, hr4, ok_bind, if_neg (by simp only [maxPacketLen]; omega),
      if_pos (by simp only [structCap]; omega), ok_bind, ok_bind]
    refine ⟨_, rfl, ?_, ?_, ?_, ?_⟩
    · simp [p2, putShort]
    · simp only; omega
    · simp only [hcost]; omega
    · exact p5.congr (by simp) (by simp only; omega)
  | aaaa ip =>
    rw [List.append_assoc] at hd4
    simp only [RData.Fits] at hfits
    subst hfits
    have hd5 : P.drop (s1.pos + 10) = ip.toList ++ rest := by
      have := drop_append_len hd4
      simpa [putShort] using this
    simp only [RData.cost] at hcost
    have hlen4 : ip.toList.length = 16 := by simp
    simp only [List.length_append, hlen4] at hposlen
    simp only [putShort, List.length_cons, List.length_nil] at hposlen
    rw [h.short hd4 (by decide), ok_bind, if_neg (by simp only [maxPacketLen]; omega)]
    have hr4 := h.rdN hd5
    rw [hlen4] at hr4
    simp only [isNameType, Nat.reduceBEq, Bool.or_self, Bool.false_eq_true, if_false, Nat.reduceEqDiff, if_true]
    rw [if_pos (by simp only [structCap]; omega), ok_bind, hr4, ok_bind, if_neg (by simp only [maxPacketLen]; omega),
      if_pos (by simp only [structCap]; omega), ok_bind, ok_bind]
    refine ⟨_, rfl, ?_, ?_, ?_, ?_⟩
    · simp [p2, putShort]
    · simp only; omega
    · simp only [hcost]; omega
    · exact p5.congr (by simp) (by simp only; omega)
  | raw d =>
    rw [List.append_assoc] at hd4
    simp only [RData.Fits] at hfits
    have hd5 : P.drop (s1.pos + 10) = d ++ rest := by
      have := drop_append_len hd4
      simpa [putShort] using this
    simp only [RData.cost] at hcost
    simp only [List.length_append] at hposlen
    simp only [putShort, List.length_cons, List.length_nil] at hposlen
    rw [h.short hd4 (by omega), ok_bind, if_neg (by simp only [maxPacketLen]; omega)]
    have hr4 := h.rdN hd5
    obtain ⟨t1, t2, t3, t4, t5, t6⟩ := hfits
    have hnt : isNameType type = false := by simp [isNameType, t3, t4, t5]
    rw [hnt, if_neg (by simp), if_neg t6, if_pos (by simp only [structCap]; omega), ok_bind, hr4, ok_bind, if_neg t1, if_neg t2]
    refine ⟨_, rfl, ?_, ?_, ?_, ?_⟩
    · simp [p2, putShort]; omega
    · simp only; omega
    · simp only [hcost]; omega
    · exact p5.congr (by simp) (by simp only; omega)
  | name n nb2 hnb2 =>
    rw [List.append_assoc] at hd4
    simp only [RData.Fits] at hfits
    have hd5 : P.drop (s1.pos + 10) = nb2 ++ rest := by
      have := drop_append_len hd4
      simpa [putShort] using this
    simp only [RData.cost] at hcost
    have hnl := NB_length hnb2
    have hnc : nameCost n = (textOf (labelsOf n)).length + 1 := rfl
    simp only [List.length_append] at hposlen
    simp only [putShort, List.length_cons, List.length_nil] at hposlen
    rw [h.short hd4 (by omega), ok_bind, if_neg (by simp only [maxPacketLen]; omega)]
    have hnt : isNameType type = true := by
      rcases hfits with rfl | rfl | rfl <;> rfl
    rw [hnt, if_pos rfl]
    obtain ⟨s2, q1, q2, q3, q4, q5⟩ := parseLabel_name h hP (some f) { s1 with pos := s1.pos + 8 + 2 }
      (p5.congr (by simp) (Nat.le_refl _)) nb2 rest n hnb2 hd5 top (hnames n (by simp [RData.names])) (by simp only; omega)
    rw [q1, ok_bind]
    simp only at q2 q3 q4
    refine ⟨s2, rfl, ?_, ?_, ?_, ?_⟩
    · simp [p2, q2, putShort]; omega
    · omega
    · rw [hcost]; omega
    · rw [nxt_some] at q5; exact q5
  | srv p w o n nb2 hnb2 =>
    simp only [List.append_assoc] at hd4
    simp only [RData.Fits] at hfits
    obtain ⟨t0, t1, t2, t3⟩ := hfits
    subst t0
    have hd5 : P.drop (s1.pos + 10) = putShort p ++ (putShort w ++ (putShort o ++ (nb2 ++ rest))) := by
      have := drop_append_len hd4
      simpa [putShort] using this
    have hd6 : P.drop (s1.pos + 12) = putShort w ++ (putShort o ++ (nb2 ++ rest)) := by
      have := drop_append_len hd5
      simpa [putShort] using this
    have hd7 : P.drop (s1.pos + 14) = putShort o ++ (nb2 ++ rest) := by
      have := drop_append_len hd6
      simpa [putShort] using this
    have hd8 : P.drop (s1.pos + 16) = nb2 ++ rest := by
      have := drop_append_len hd7
      simpa [putShort] using this
    simp only [RData.cost] at hcost
    have hnl := NB_length hnb2
    have hnc : nameCost n = (textOf (labelsOf n)).length + 1 := rfl
    simp only [List.length_append] at hposlen
    simp only [putShort, List.length_cons, List.length_nil] at hposlen
    rw [h.short hd4 (by omega), ok_bind, if_neg (by simp only [maxPacketLen]; omega)]
    simp only [isNameType, Nat.reduceBEq, Bool.or_self, Bool.false_eq_true, if_false, if_true]
    rw [h.short hd5 t1, ok_bind, h.short hd6 t2, ok_bind, h.short hd7 t3, ok_bind]
    obtain ⟨s2, q1, q2, q3, q4, q5⟩ := parseLabel_name h hP (some f) { s1 with pos := s1.pos + 8 + 2 + 6 }
      (p5.congr (by simp) (Nat.le_refl _)) nb2 rest n hnb2 hd8 top (hnames n (by simp [RData.names])) (by simp only; omega)
    rw [q1, ok_bind]
    simp only at q2 q3 q4
    refine ⟨s2, rfl, ?_, ?_, ?_, ?_⟩
    · simp [p2, q2, putShort]; omega
    · omega
    · rw [hcost]; omega
    · rw [nxt_some] at q5; exact q5

theorem parseRrs_ok {b P} (h : Holds b P) (hP : P.length ≤ 65535) (top) {σ rs bs σ'}
    (hb : RsBytes σ rs bs σ') : ∀ (s : PState) (slot : Nat) (rest : Bytes), (∀ r ∈ rs, r.Ok top) →
    (rs ≠ [] → PS P σ s) → P.drop s.pos = bs ++ rest → slot + 64 * rs.length ≤ 65534 →
    s.len + (rs.map RSpec.cost).sum ≤ 65534 →
    ∃ s', parseRrs b structCap slot rs.length s = .ok (rs.map RSpec.seen, s') ∧ s'.pos = s.pos + bs.length ∧
      s.len ≤ s'.len ∧ s'.len ≤ s.len + (rs.map RSpec.cost).sum ∧
      (rs ≠ [] → PS P σ' s') ∧ (rs = [] → σ' = σ ∧ s' = s) ∧ (rs ≠ [] → σ' ≠ none) := by
  induction hb with
  | nil σ => intro s slot rest _ _ _ _ _; exact ⟨s, by simp [parseRrs], by simp, by simp, by simp, by simp, by simp, by simp⟩
  | cons σ r rs nb db bs σ' hnb hdb hrs ih =>
    intro s slot rest hok hps hd hslot hl
    have hr := hok r (by simp)
    simp only [List.map_cons, List.sum_cons, List.length_cons] at hl hslot
    simp only [List.append_assoc] at hd
    obtain ⟨s1, p1, p2, p3, p4, p5⟩ := parseRr_ok h hP top σ r nb db (bs ++ rest) hr s slot (hps (by simp)) hnb hdb hd
      (by omega) (by omega)
    have hd1 : P.drop s1.pos = bs ++ rest := by
      have e : s1.pos = s.pos + (nb ++ (putShort r.type ++ (putShort r.cls ++ (putLong r.ttl ++ db)))).length := by
        rw [p2]; simp [putShort, putLong]; omega
      rw [e]
      apply drop_append_len
      rw [hd]; simp
    obtain ⟨s2, q1, q2, q3, q4, q5, q6, q7⟩ := ih s1 (slot + 64) rest
      (fun x hx => hok x (by simp [hx])) (fun _ => p5) hd1 (by omega) (by omega)
    refine ⟨s2, ?_, ?_, by omega, ?_, ?_, by simp, ?_⟩
    · simp only [List.length_cons]
      unfold parseRrs
      rw [p1, ok_bind]
      simp only
      rw [q1, ok_bind]
      rfl
    · rw [q2, p2]; simp [putShort, putLong]; omega
    · simp only [List.map_cons, List.sum_cons]; omega
    · intro _
      by_cases hq0 : rs = []
      · obtain ⟨e1, e2⟩ := q6 hq0
        rw [e1, e2]; exact p5
      · exact q5 hq0
    · intro _
      by_cases hq0 : rs = []
      · rw [(q6 hq0).1]; exact nxt_ne_none _ _
      · exact q7 hq0

/-! ### Section counts -/

theorem qdCalls_append (a b : List BOp) : qdCalls (a ++ b) = qdCalls a + qdCalls b := by
  simp [qdCalls]

theorem rrCalls_append (s : Section) (a b : List BOp) : rrCalls s (a ++ b) = rrCalls s a + rrCalls s b := by
  simp [rrCalls]

theorem qdCalls_qs (qs : List QSpec) : qdCalls (qs.map QSpec.op) = qs.length := by
  induction qs with
  | nil => rfl
  | cons q qs ih =>
    have := qdCalls_append [q.op] (qs.map QSpec.op)
    rw [List.map_cons, List.length_cons, ← ih]
    simp only [List.singleton_append] at this
    rw [this]
    have h1 : qdCalls [q.op] = 1 := rfl
    omega

theorem rrCalls_qs (s) (qs : List QSpec) : rrCalls s (qs.map QSpec.op) = 0 := by
  induction qs with
  | nil => rfl
  | cons q qs ih =>
    have := rrCalls_append s [q.op] (qs.map QSpec.op)
    rw [List.map_cons]
    simp only [List.singleton_append] at this
    rw [this, ih]; rfl

theorem qdCalls_rs (s) (rs : List RSpec) : qdCalls (rs.flatMap (RSpec.ops s)) = 0 := by
  induction rs with
  | nil => rfl
  | cons r rs ih =>
    rw [List.flatMap_cons, qdCalls_append, ih]
    obtain ⟨_, _, _, _, data⟩ := r
    cases data <;> rfl

theorem rrCalls_rs (s s') (rs : List RSpec) :
    rrCalls s (rs.flatMap (RSpec.ops s')) = if s' = s then rs.length else 0 := by
  induction rs with
  | nil => simp [rrCalls]
  | cons r rs ih =>
    rw [List.flatMap_cons, rrCalls_append, ih]
    have : rrCalls s (RSpec.ops s' r) = if s' = s then 1 else 0 := by
      obtain ⟨_, _, _, _, data⟩ := r
      cases data <;> cases s <;> cases s' <;> rfl
    rw [this]
    split <;> simp; omega

/-! ### The theorem -/

/-- Ready to read on. -/
structure Ready (P : Bytes) (σ : Option (List Bytes)) (s : PState) : Prop where
  some : σ ≠ none → PS P σ s
  none : σ = none → s.cache = [] ∧ s.pos = 12

theorem Ready.ps {P σ s} (h : Ready P σ s) (hl : 12 ≤ s.len) : PS P σ s := by
  cases σ with
  | none => exact ⟨(h.none rfl).1, hl, (h.none rfl).2⟩
  | some f => exact h.some (by simp)

/-- **C03 (partial).** For every message within the limits whose names lie below
a common top label, and whatever bytes follow the packet in the receive buffer,
`message_parse` succeeds and returns exactly the message that was built: id,
header bits, and all questions and records with their names (in canonical form
with a trailing dot), types, classes, TTLs and data, in order. -/
theorem C03_build_parse_partial (top : Bytes) (m : MSpec) (hm : m.Ok top) (b : RBuf)
    (hb : Holds b m.packet) :
    messageParse b structCap = .ok m.seen := by
  have hP := hm.packet
  have hcost := hm.cost
  unfold MSpec.cost at hcost
  -- what was written
  have hstart : BS top none (start m.id m.header).pkt (start m.id m.header).labels := .fresh _ (by simp [start])
  have hops : m.ops = m.qd.map QSpec.op ++ (m.an.flatMap (RSpec.ops .an) ++ (m.ns.flatMap (RSpec.ops .ns) ++
    m.ar.flatMap (RSpec.ops .ar))) := by simp [MSpec.ops]
  generalize hm1 : brun (start m.id m.header) (m.qd.map QSpec.op) = m1
  generalize hm2 : brun m1 (m.an.flatMap (RSpec.ops .an)) = m2
  generalize hm3 : brun m2 (m.ns.flatMap (RSpec.ops .ns)) = m3
  generalize hm4 : brun m3 (m.ar.flatMap (RSpec.ops .ar)) = m4
  have hrun : brun (start m.id m.header) m.ops = m4 := by
    rw [hops, brun_append, brun_append, brun_append, hm1, hm2, hm3, hm4]
  obtain ⟨b1, σ1, x1, x2, x3⟩ := qs_BS top m.qd none (start m.id m.header) hstart hm.qd
  rw [hm1] at x1 x3
  obtain ⟨b2, σ2, y1, y2, y3⟩ := rs_BS top .an m.an σ1 m1 x3 hm.an (by
    intro pre d post he
    have := hm.raw (m.qd.map QSpec.op ++ pre) d (post ++ (m.ns.flatMap (RSpec.ops .ns) ++ m.ar.flatMap (RSpec.ops .ar)))
      (by rw [hops, he]; simp)
    rw [brun_append, hm1] at this; exact this)
  rw [hm2] at y1 y3
  obtain ⟨b3, σ3, z1, z2, z3⟩ := rs_BS top .ns m.ns σ2 m2 y3 hm.ns (by
    intro pre d post he
    have := hm.raw (m.qd.map QSpec.op ++ (m.an.flatMap (RSpec.ops .an) ++ pre)) d (post ++ m.ar.flatMap (RSpec.ops .ar))
      (by rw [hops, he]; simp)
    rw [brun_append, brun_append, hm1, hm2] at this; exact this)
  rw [hm3] at z1 z3
  obtain ⟨b4, σ4, w1, w2, w3⟩ := rs_BS top .ar m.ar σ3 m3 z3 hm.ar (by
    intro pre d post he
    have := hm.raw (m.qd.map QSpec.op ++ (m.an.flatMap (RSpec.ops .an) ++ (m.ns.flatMap (RSpec.ops .ns) ++ pre))) d post
      (by rw [hops, he]; simp)
    rw [brun_append, brun_append, brun_append, hm1, hm2, hm3] at this; exact this)
  rw [hm4] at w1 w3
  have hpkt : m4.pkt = List.replicate 12 0 ++ (b1 ++ (b2 ++ (b3 ++ b4))) := by
    rw [w1, z1, y1, x1]; simp [start]
  have hpacket : m.packet = headerBytes m4 ++ (b1 ++ (b2 ++ (b3 ++ b4))) := by
    unfold MSpec.packet messagePacket
    rw [hrun, hpkt]; simp
  obtain ⟨c1, c2, c3, c4, c5, c6⟩ := brun_counts m.ops (start m.id m.header)
  rw [hrun] at c1 c2 c3 c4 c5 c6
  have k1 : m4.qd = m.qd.length := by
    rw [c1, hops]
    simp only [qdCalls_append, qdCalls_qs, qdCalls_rs, start]; omega
  have k2 : m4.an = m.an.length := by
    rw [c2, hops]
    simp [rrCalls_append, rrCalls_qs, rrCalls_rs, start]
  have k3 : m4.ns = m.ns.length := by
    rw [c3, hops]
    simp [rrCalls_append, rrCalls_qs, rrCalls_rs, start]
  have k4 : m4.ar = m.ar.length := by
    rw [c4, hops]
    simp [rrCalls_append, rrCalls_qs, rrCalls_rs, start]
  generalize hPdef : m.packet = P at hb hP hpacket
  -- the header
  have hh : headerBytes m4 = putShort m.id ++ ([flag0 m.header, flag1 m.header] ++ (putShort m.qd.length ++
      (putShort m.an.length ++ (putShort m.ns.length ++ putShort m.ar.length)))) := by
    unfold headerBytes
    rw [c5, c6, k1, k2, k3, k4]
    have : flagBytes m.header = [flag0 m.header, flag1 m.header] := rfl
    simp [start, this]
  rw [hh] at hpacket
  simp only [List.append_assoc] at hpacket
  have d0 : P.drop 0 = putShort m.id ++ ([flag0 m.header, flag1 m.header] ++ (putShort m.qd.length ++
      (putShort m.an.length ++ (putShort m.ns.length ++ (putShort m.ar.length ++ (b1 ++ (b2 ++ (b3 ++ b4)))))))) := by
    rw [List.drop_zero, hpacket]
  have d2 : P.drop 2 = flag0 m.header :: (flag1 m.header :: (putShort m.qd.length ++
      (putShort m.an.length ++ (putShort m.ns.length ++ (putShort m.ar.length ++ (b1 ++ (b2 ++ (b3 ++ b4)))))))) := by
    have := drop_append_len d0
    simpa [putShort] using this
  have d3 := drop_cons_succ d2
  have d4 := drop_cons_succ d3
  have d6 : P.drop 6 = putShort m.an.length ++ (putShort m.ns.length ++ (putShort m.ar.length ++ (b1 ++ (b2 ++ (b3 ++ b4))))) := by
    have := drop_append_len d4
    simpa [putShort] using this
  have d8 : P.drop 8 = putShort m.ns.length ++ (putShort m.ar.length ++ (b1 ++ (b2 ++ (b3 ++ b4)))) := by
    have := drop_append_len d6
    simpa [putShort] using this
  have d10 : P.drop 10 = putShort m.ar.length ++ (b1 ++ (b2 ++ (b3 ++ b4))) := by
    have := drop_append_len d8
    simpa [putShort] using this
  have d12 : P.drop 12 = b1 ++ (b2 ++ (b3 ++ b4)) := by
    have := drop_append_len d10
    simpa [putShort] using this
  unfold messageParse
  rw [hb.short d0 hm.id, ok_bind, hb.rd d2, ok_bind, hb.rd d3, ok_bind, hb.short d4 (by omega), ok_bind,
    if_neg (by simp only [maxPacketLen]; omega), hb.short d6 (by omega), ok_bind, if_neg (by simp only [maxPacketLen]; omega),
    hb.short d8 (by omega), ok_bind, if_neg (by simp only [maxPacketLen]; omega), hb.short d10 (by omega), ok_bind,
    if_neg (by simp only [maxPacketLen]; omega), flags_round_trip _ hm.header]
  -- the sections
  unfold parseBody
  obtain ⟨s1, q1, q2, q3, q4, q5, q6, q7⟩ := parseQds_ok hb hP top x2
    { pos := 12, len := 16 * m.qd.length, cache := [] } 0 (b2 ++ (b3 ++ b4)) hm.qd
    (by
      intro hne
      have := List.length_pos_iff.2 hne
      exact ⟨rfl, by simp only; omega, rfl⟩) d12 (by omega) (by simp only; omega)
  simp only at q1 q2 q3 q4 q5 q6 q7 ⊢
  rw [q1, ok_bind]
  simp only
  have ready1 : ∀ len, s1.len ≤ len → Ready P σ1 { s1 with len := len } := by
    intro len hle
    by_cases h0 : m.qd = []
    · obtain ⟨e1, e2⟩ := q6 h0
      exact ⟨fun hne => absurd e1 hne, fun _ => by rw [e2]; exact ⟨rfl, rfl⟩⟩
    · exact ⟨fun hne => (q5 h0).congr hne hle, fun hn => absurd hn (q7 h0)⟩
  have a1 : align8 s1.len ≤ s1.len + 7 := by unfold align8; omega
  have a1' : s1.len ≤ align8 s1.len := by unfold align8; omega
  have a2 : align8 (align8 s1.len + 64 * m.an.length) = align8 s1.len + 64 * m.an.length := by
    unfold align8; omega
  have a3 : align8 (align8 s1.len + 64 * m.an.length + 64 * m.ns.length)
      = align8 s1.len + 64 * m.an.length + 64 * m.ns.length := by
    unfold align8; omega
  rw [a2, a3]
  generalize align8 s1.len = an0 at *
  have dd1 : P.drop s1.pos = b2 ++ (b3 ++ b4) := by rw [q2]; exact drop_append_len d12
  have r1 := ready1 (an0 + 64 * m.an.length + 64 * m.ns.length + 64 * m.ar.length) (by omega)
  obtain ⟨s2, u1, u2, u3, u4, u5, u6, u7⟩ := parseRrs_ok hb hP top y2
    { s1 with len := an0 + 64 * m.an.length + 64 * m.ns.length + 64 * m.ar.length } an0 (b3 ++ b4) hm.an
    (by
      intro hne
      have := List.length_pos_iff.2 hne
      exact r1.ps (by simp only; omega)) dd1 (by omega) (by simp only; omega)
  rw [u1, ok_bind]
  simp only at u2 u3 u4 ⊢
  have r2 : Ready P σ2 s2 := by
    by_cases h0 : m.an = []
    · obtain ⟨e1, e2⟩ := u6 h0
      rw [e1, e2]; exact r1
    · exact ⟨fun _ => u5 h0, fun hn => absurd hn (u7 h0)⟩
  have dd2 : P.drop s2.pos = b3 ++ b4 := by rw [u2]; exact drop_append_len dd1
  obtain ⟨s3, v1, v2, v3, v4, v5, v6, v7⟩ := parseRrs_ok hb hP top z2 s2 (an0 + 64 * m.an.length) b4 hm.ns
    (by
      intro hne
      have := List.length_pos_iff.2 hne
      exact r2.ps (by omega)) dd2 (by omega) (by omega)
  rw [v1, ok_bind]
  simp only
  have r3 : Ready P σ3 s3 := by
    by_cases h0 : m.ns = []
    · obtain ⟨e1, e2⟩ := v6 h0
      rw [e1, e2]; exact r2
    · exact ⟨fun _ => v5 h0, fun hn => absurd hn (v7 h0)⟩
  have dd3 : P.drop s3.pos = b4 ++ [] := by rw [v2, List.append_nil]; exact drop_append_len dd2
  obtain ⟨s4, t1, _⟩ := parseRrs_ok hb hP top w2 s3 (an0 + 64 * m.an.length + 64 * m.ns.length) [] hm.ar
    (by
      intro hne
      have := List.length_pos_iff.2 hne
      exact r3.ps (by omega)) dd3 (by omega) (by omega)
  rw [t1, ok_bind]
  rfl

/-! ### Witnesses -/

/-- A sufficient condition for `RawFits` that does not look at the builder. -/
theorem rawFits_of_cost (m : MSpec) (h : 12 + (m.ops.map maxCost).sum ≤ 4096) : m.RawFits := by
  intro pre d post he
  have hp : ∀ (ops : List BOp) (b : Builder), (brun b ops).pkt.length ≤ b.pkt.length + (ops.map maxCost).sum := by
    intro ops
    induction ops with
    | nil => intro b; simp [brun]
    | cons op ops ih =>
      intro b
      obtain ⟨a, ha, hl⟩ := C10_append_only b op
      have := ih (bstep b op)
      rw [ha, List.length_append] at this
      rw [brun_cons, List.map_cons, List.sum_cons]; omega
  have := hp pre (start m.id m.header)
  rw [he, List.map_append, List.sum_append, List.map_cons, List.sum_cons] at h
  simp only [maxCost] at h
  simp only [start, List.length_replicate] at this
  simp only [packetLen, start]
  omega

/-- A question for "b.a.local.", an SRV, a TXT, an A and a PTR record. -/
def sample : MSpec where
  id := 7
  header := { qr := true, aa := true }
  qd := [⟨nameBA, 33, 1⟩]
  an := [⟨nameBA, 33, 0x8001, 120, .srv 0 0 80 nameXBA⟩, ⟨nameBA, 16, 0x8001, 4500, .raw [3, 0x61, 0x3D, 0x31]⟩]
  ns := []
  ar := [⟨nameA, 1, 0x8001, 120, .a #v[192, 168, 0, 1]⟩, ⟨nameA, 12, 1, 120, .name nameXBA⟩]

theorem goodName_of_check (n : Bytes) (a : List Bytes)
    (h : ((labelsOf n).all fun l => decide (1 ≤ l.length ∧ l.length ≤ 63)) = true ∧
      (stripDot n).length ≤ 254 ∧ n.contains 0 = false ∧
      labelsOf n = a ++ [[0x6C, 0x6F, 0x63, 0x61, 0x6C]] ∧ a.contains [0x6C, 0x6F, 0x63, 0x61, 0x6C] = false) :
    GoodName [0x6C, 0x6F, 0x63, 0x61, 0x6C] n :=
  ⟨hostName_of_check n ⟨h.1, h.2.1, h.2.2.1⟩, a, h.2.2.2.1, by
    have := h.2.2.2.2
    intro hc
    rw [List.contains_eq_mem] at this
    simp [hc] at this⟩

theorem goodA : GoodName [0x6C, 0x6F, 0x63, 0x61, 0x6C] nameA := goodName_of_check _ [[0x61]] (by decide +kernel)
theorem goodBA : GoodName [0x6C, 0x6F, 0x63, 0x61, 0x6C] nameBA := goodName_of_check _ [[0x62], [0x61]] (by decide +kernel)
theorem goodXBA : GoodName [0x6C, 0x6F, 0x63, 0x61, 0x6C] nameXBA :=
  goodName_of_check _ [[0x78], [0x62], [0x61]] (by decide +kernel)

/-- The hypotheses of C03 hold for the sample. -/
theorem sample_ok : sample.Ok [0x6C, 0x6F, 0x63, 0x61, 0x6C] where
  id := by decide
  header := ⟨by decide, by decide, by decide⟩
  qd := by
    intro q hq
    simp only [sample, List.mem_cons, List.not_mem_nil, or_false] at hq
    subst hq
    exact ⟨goodBA, by decide, by decide⟩
  an := by
    intro r hr
    simp only [sample, List.mem_cons, List.not_mem_nil, or_false] at hr
    rcases hr with rfl | rfl
    · exact ⟨goodBA, by decide, by decide, by decide, by simp [RData.Fits], by simp [RData.names]; exact goodXBA⟩
    · exact ⟨goodBA, by decide, by decide, by decide, by simp [RData.Fits], by simp [RData.names]⟩
  ns := by intro r hr; simp [sample] at hr
  ar := by
    intro r hr
    simp only [sample, List.mem_cons, List.not_mem_nil, or_false] at hr
    rcases hr with rfl | rfl
    · exact ⟨goodA, by decide, by decide, by decide, by simp [RData.Fits], by simp [RData.names]⟩
    · exact ⟨goodA, by decide, by decide, by decide, by simp [RData.Fits], by simp [RData.names]; exact goodXBA⟩
  packet := by decide +kernel
  raw := rawFits_of_cost _ (by decide +kernel)
  cost := by decide +kernel

/-- **C03 is false without a common top label**: three questions for "a.local.",
"b.a.local." and "b." are read back as different names. -/
theorem C03_prefix_counterexample :
    let m : MSpec := ⟨0, {}, [⟨nameA, 1, 1⟩, ⟨nameBA, 1, 1⟩, ⟨nameB, 1, 1⟩], [], [], []⟩
    messageParse (RBuf.ofBytes recvSize m.packet) structCap ≠ .ok m.seen ∧
    messageParse (RBuf.ofBytes recvSize m.packet) structCap
      = .ok ⟨0, {}, [⟨canon nameA, 1, 1⟩, ⟨canon nameBA, 1, 1⟩, ⟨canon nameBA, 1, 1⟩], [], [], []⟩ := by
  constructor
  · decide +kernel
  · decide +kernel

end Mdns
