import Verif.Lemmas.Origin
import Verif.Props.Discovery

/-!
# C80: what is reported or listed was received
-/

namespace Mdns

/-! ### Specification -/

/-- The record `a` was among the answers of a response received from `src` at `now`, and not as a goodbye. -/
def Learnt (h : List Call) (now : TV) (src : Addr) (a : Resource) : Prop :=
  a.ttl ≠ 0 ∧ ∃ m out, (Op.recv now m src, out) ∈ h ∧ m.header.qr = true ∧ a ∈ m.an

/-- `b` has the name, type and data of `a`, the undecoded data too; if the data is a single name then the
address shown is that of the sender. -/
structure Shows (a : Resource) (src : Addr) (b : Answer) : Prop where
  data : carries a b = true
  raw : b.rdata.getD [] = a.rdata
  sender : ∀ n, a.known = .name n → match src.ip with | .v4 x => b.ip = x | .v6 x => b.ip6 = x ∧ b.ip = ip4Zero

/-- The lifetime the cache gives to a record. -/
def lease (now : TV) (a : Resource) : Nat := now.sec + a.ttl / 2 + 8

/-! ### Proofs -/

theorem newEntry_shows {a : Resource} (hw : a.WF) (src : Addr) (t : Nat) : Shows a src (Core.newEntry a src t) where
  data := by
    rw [← carries_eq hw, hit_iff hw src t]
    exact SameRec.refl _
  raw := by
    have : ∀ r : Bytes, (if r = [] then none else some r : Option Bytes).getD [] = r := fun r => by
      split
      · rename_i h; rw [h]; rfl
      · rfl
    unfold Core.newEntry
    cases a.known with
    | name n => cases src.ip <;> exact this _
    | _ => exact this _
  sender n hn := by
    unfold Core.newEntry
    rw [hn]
    dsimp only
    cases src.ip <;> simp

theorem carries_ttl {a : Resource} {b : Answer} {t : Nat} : carries a { b with ttl := t } = carries a b := rfl

theorem Shows.ttl {a : Resource} {src : Addr} {b : Answer} (h : Shows a src b) (t : Nat) : Shows a src { b with ttl := t } :=
  ⟨h.data, h.raw, h.sender⟩

theorem Learnt.mono {h h' : List Call} {now : TV} {src : Addr} {a : Resource} (k : Learnt h now src a) : Learnt (h ++ h') now src a := by
  obtain ⟨ht, m, out, h1, h2, h3⟩ := k
  exact ⟨ht, m, out, List.mem_append_left _ h1, h2, h3⟩

/-- What the cache may hold. -/
def Held (h : List Call) (b : Answer) : Prop :=
  (∃ now src a, Learnt h now src a ∧ Shows a src b) ∧ ∃ now src a, Learnt h now src a ∧ carries a b = true ∧ b.ttl = lease now a

/-- What may be reported. -/
def Reported (h : List Call) (b : Answer) : Prop :=
  ∃ now src a, Learnt h now src a ∧ Shows a src b ∧ (b.ttl = 0 ∨ b.ttl = lease now a)

theorem origin {env : Env} {h : List Call} {d : D Ptrs} (n : Hist env h d) : Origin (Held h) (Reported h) d.c := by
  refine n.induct (P := fun h c _ => Origin (Held h) (Reported h) c) (fun _ _ _ => ⟨fun i b m => (by cases m), fun b m => by cases m⟩) ?_
  intro h c l o a c' l' ih hi _ _ hd _
  have mono : Origin (Held (h ++ [(o, a)])) (Reported (h ++ [(o, a)])) c := by
    refine ⟨fun i b m => ?_, fun b m => ?_⟩
    · obtain ⟨⟨now, src, x, h1, h2⟩, now', src', x', h3, h4, h5⟩ := ih.cache i b m
      exact ⟨⟨now, src, x, h1.mono, h2⟩, now', src', x', h3.mono, h4, h5⟩
    · obtain ⟨now, src, x, h1, h2⟩ := ih.told b m
      exact ⟨now, src, x, h1.mono, h2⟩
  have hg : ∀ b, Held (h ++ [(o, a)]) b → Reported (h ++ [(o, a)]) b.gone := by
    rintro b ⟨⟨now, src, x, h1, h2⟩, _⟩
    exact ⟨now, src, x, h1, h2.ttl 0, .inl rfl⟩
  refine mono.did hd hi hg ?_
  intro now m src ho hq x mx hw
  have hh : x.ttl ≠ 0 → Learnt (h ++ [(o, a)]) now src x := fun ht => ⟨ht, m, a, by simp [ho], hq, mx⟩
  have hs := newEntry_shows hw src (lease now x)
  have ht : (Core.newEntry x src (lease now x)).ttl = lease now x := newEntry_ttl ..
  refine ⟨hg, fun h0 => ⟨⟨⟨now, src, x, hh h0, hs⟩, now, src, x, hh h0, hs.data, ht⟩, now, src, x, hh h0, hs, .inr ht⟩, ?_⟩
  rintro h0 b ⟨⟨n1, s1, x1, h1, h2⟩, _⟩ hc
  exact ⟨⟨n1, s1, x1, h1, h2.ttl _⟩, now, src, x, hh h0, hc, rfl⟩

/-- C80, first half: whatever an answer callback is told came with a response: name, type and data are those of an
answer in it, and the lifetime is half that of the answer and 8 seconds, counted from when it was received, or 0 because
the record goes away. -/
theorem C80_reported {env : Env} {h : List Call} {d : D Ptrs} (n : Hist env h d) :
    ∀ q cb rr, Event.answer q cb rr ∈ d.c.log → ∃ now src a, Learnt h now src a ∧ Shows a src rr ∧
      (rr.ttl = 0 ∨ rr.ttl = lease now a) := by
  intro q cb rr m
  exact (origin n).told rr (List.mem_filterMap.mpr ⟨_, m, rfl⟩)

/-- C80, second half: whatever `mdnsd_list` gives came with a response, and expires as a response said that had it. -/
theorem C80_listed {env : Env} {h : List Call} {d : D Ptrs} (n : Hist env h d) :
    ∀ host type, ∀ b ∈ d.c.listed host type, (∃ now src a, Learnt h now src a ∧ Shows a src b) ∧
      ∃ now src a, Learnt h now src a ∧ carries a b = true ∧ b.ttl = lease now a := by
  intro host type b m
  rw [listed_eq] at m
  exact (origin n).cache _ b (List.mem_filter.mp m).1

/-! ### Example -/

namespace Sample

/-- A response. -/
def telling (as : List Resource) : Msg := { id := 0, header := { qr := true, aa := true }, qd := [], an := as, ns := [], ar := [] }

/-- A pointer in a response. -/
def ptrRes (ttl : Nat) : Resource := { name := nameA, type := 12, cls := 1, ttl := ttl, rdata := [0xC0, 0x0C], known := .name nameBA }

/-- A browsing daemon that hears of a service. -/
def learntOps : List Op := [.query nameA 12 (some 7), .recv (at_ 101) (telling [ptrRes 120]) other]

def learnt : List Call × D Ptrs := trace quiet learntOps (newD 1 1000 (at_ 100))

/-- C80: something is reported and listed. -/
example : Hist quiet learnt.1 learnt.2 ∧ (answersOf learnt.2.c.log).map (fun b => (b.name, b.rdname, b.ttl)) = [(nameA, some nameBA, 169)] ∧
    (learnt.2.c.listed nameA 12).map (fun b => (b.name, b.rdname, b.ttl)) = [(nameA, some nameBA, 169)] :=
  ⟨(calls_of (ops := learntOps) (d := newD 1 1000 (at_ 100)) (by decide +kernel)).hist, by decide +kernel, by decide +kernel⟩

end Sample

end Mdns
