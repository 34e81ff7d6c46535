import Verif.Props.Mquery
import Verif.Props.TxtDecode

namespace Mdns.Mquery

open Mdns.CLib SdTxt

/-- The answer is a TXT record of the instance `n` with the value `v` for `key`. -/
def Gives (key n : Bytes) (a : Answer × Bool) (v : Bytes) : Prop :=
  a.1.ttl ≠ 0 ∧ a.1.type = 16 ∧ a.1.name = n ∧ ∃ b, a.1.rdata = some b ∧ ValueOf b key (some v)

/-- The first value of `key` that is not empty, cut to 63 bytes; empty if there is none. -/
def FirstGiven (key n : Bytes) (as : List (Answer × Bool)) (r : Bytes) : Prop :=
  (∃ pre a post v, as = pre ++ a :: post ∧ Gives key n a v ∧ v ≠ [] ∧ r = v.take 63 ∧
    ∀ b ∈ pre, ∀ v', Gives key n b v' → v' = []) ∨
  (r = [] ∧ ∀ a ∈ as, ∀ v, Gives key n a v → v = [])

/-- The value an answer gives, empty if none. -/
def given (key n : Bytes) (a : Answer × Bool) : Bytes :=
  if a.1.ttl ≠ 0 ∧ a.1.type = 16 ∧ a.1.name = n then
    match a.1.rdata with
    | some b => match txt2sd b b.length with
      | .ok r => (getOpt r key).getD []
      | .oob => []
    | none => []
  else []

theorem given_gives (key n : Bytes) (hk : key ≠ []) (a : Answer × Bool) :
    (given key n a ≠ [] → Gives key n a (given key n a)) ∧
    ∀ v, Gives key n a v → v = given key n a := by
  unfold given Gives
  by_cases h : a.1.ttl ≠ 0 ∧ a.1.type = 16 ∧ a.1.name = n
  · rw [if_pos h]
    cases hr : a.1.rdata with
    | none => exact ⟨fun h => absurd rfl h, by rintro v ⟨_, _, _, b, hb, _⟩; cases hb⟩
    | some b =>
      obtain ⟨r, e, hv⟩ := C60_txt_values b key hk
      simp only [e]
      constructor
      · intro hne
        refine ⟨h.1, h.2.1, h.2.2, b, rfl, ?_⟩
        cases hg : getOpt r key with
        | none => rw [hg] at hne; exact absurd rfl hne
        | some v => rw [hg] at hv; exact hv
      · rintro v ⟨_, _, _, b', hb', hv'⟩
        injection hb' with hb'; subst hb'
        have := hv.unique hv'
        rw [this]; rfl
  · rw [if_neg h]
    exact ⟨fun h => absurd rfl h, by rintro v ⟨h1, h2, h3, _⟩; exact absurd ⟨h1, h2, h3⟩ h⟩

/-- What an answer does to a value that is set once. -/
def keep (old v : Bytes) : Bytes := if old = [] then v.take 63 else old

theorem keep_nil (old : Bytes) : keep old [] = old := by
  unfold keep; split
  · rename_i h; rw [h]; rfl
  · rfl

theorem get_given (x : Xht.Table) (k : Bytes) (i : Bytes) :
    keep i ((getOpt (some x) k).getD []) = match Xht.get x k with
      | some v => if i.isEmpty then strlcpy v.str 64 else i
      | none => i := by
  unfold getOpt
  simp only [Option.bind_some]
  cases Xht.get x k with
  | none => exact keep_nil i
  | some v =>
    simp only [Option.map_some, Option.getD_some]
    unfold keep strlcpy
    cases i <;> simp

theorem setTxt_values (x : Xht.Table) (i : Inst) :
    (setTxt x i).product = keep i.product ((getOpt (some x) kwProduct).getD []) ∧
    (setTxt x i).version = keep i.version ((getOpt (some x) kwVersion).getD []) := by
  rw [get_given, get_given]
  unfold setTxt
  dsimp only
  cases Xht.get x kwProduct <;> cases Xht.get x kwVersion <;>
    simp only [] <;> (try split) <;> (try split) <;> simp_all

theorem instChange_values (n : Bytes) (a : Answer × Bool) (i : Inst) :
    match instChange n a with
    | some f => (f i).product = keep i.product (given kwProduct n a) ∧
        (f i).version = keep i.version (given kwVersion n a)
    | none => given kwProduct n a = [] ∧ given kwVersion n a = [] := by
  unfold instChange
  by_cases h : a.1.ttl ≠ 0 ∧ a.1.type = 16
  · rw [if_neg h.1, if_neg (by omega), if_neg (by omega), if_pos h.2]
    cases hr : a.1.rdata with
    | none => simp [given, hr]
    | some b =>
      dsimp only
      by_cases hn : a.1.name = n
      · by_cases hb : b = []
        · rw [if_neg (fun e => e.2 hb)]
          subst hb
          have hg : ∀ k, given k n a = [] := by
            intro k; unfold given; rw [hr]; simp [txt2sd, getOpt]
          exact ⟨hg _, hg _⟩
        · rw [if_pos ⟨hn, hb⟩]
          have hg : ∀ k, given k n a = match txt2sd b b.length with
              | .ok r => (getOpt r k).getD []
              | .oob => [] := by
            intro k; unfold given; rw [if_pos ⟨h.1, h.2, hn⟩, hr]
          rw [hg, hg]
          cases ht : txt2sd b b.length with
          | oob => dsimp only [id]; exact ⟨(keep_nil _).symm, (keep_nil _).symm⟩
          | ok r =>
            cases r with
            | none => dsimp only [id]; exact ⟨(keep_nil _).symm, (keep_nil _).symm⟩
            | some x => exact setTxt_values x i
      · rw [if_neg (fun e => hn e.1)]
        simp [given, hn]
  · have hg : ∀ k, given k n a = [] := by
      intro k; unfold given; rw [if_neg (fun e => h ⟨e.1, e.2.1⟩)]
    rw [hg, hg, keep_nil, keep_nil]
    by_cases h0 : a.1.ttl = 0
    · rw [if_pos h0]; exact ⟨rfl, rfl⟩
    · rw [if_neg h0]
      by_cases h1 : a.1.type = 12
      · rw [if_pos h1]; split
        · rename_i f hf; split at hf <;> cases hf; exact ⟨rfl, rfl⟩
        · exact ⟨rfl, rfl⟩
      · rw [if_neg h1]
        by_cases h2 : a.1.type = 33
        · rw [if_pos h2]
          cases a.1.rdname with
          | none => exact ⟨rfl, rfl⟩
          | some rd =>
            dsimp only
            split
            · rename_i f hf
              split at hf <;> cases hf
              dsimp only
              split <;> exact ⟨rfl, rfl⟩
            · exact ⟨rfl, rfl⟩
        · rw [if_neg h2, if_neg (fun e => h ⟨h0, e⟩)]; exact ⟨rfl, rfl⟩

theorem instStep_values (n : Bytes) (o : Option Inst) (as : List (Answer × Bool)) :
    let r := as.foldl (instStep n) o
    ((r.getD { iname := n }).product = as.foldl (fun v a => keep v (given kwProduct n a)) (o.getD { iname := n }).product) ∧
    ((r.getD { iname := n }).version = as.foldl (fun v a => keep v (given kwVersion n a)) (o.getD { iname := n }).version) := by
  induction as generalizing o with
  | nil => exact ⟨rfl, rfl⟩
  | cons a as ih =>
    have h := ih (instStep n o a)
    simp only [List.foldl_cons] at h ⊢
    rw [h.1, h.2]
    have hv := instChange_values n a (o.getD { iname := n })
    unfold instStep
    cases hc : instChange n a with
    | none => rw [hc] at hv; rw [hv.1, hv.2, keep_nil, keep_nil]; exact ⟨rfl, rfl⟩
    | some f => rw [hc] at hv; rw [← hv.1, ← hv.2]; exact ⟨rfl, rfl⟩

theorem keep_set (v : Bytes) (hv : v ≠ []) (l : List Bytes) : l.foldl keep v = v := by
  induction l with
  | nil => rfl
  | cons x l ih => rw [List.foldl_cons, keep, if_neg hv, ih]

theorem first_given (key n : Bytes) (hk : key ≠ []) (as : List (Answer × Bool)) :
    FirstGiven key n as (as.foldl (fun v a => keep v (given key n a)) []) := by
  induction as with
  | nil => exact .inr ⟨rfl, by intro a ha; cases ha⟩
  | cons a as ih =>
    rw [List.foldl_cons]
    by_cases h : given key n a = []
    · rw [h, keep_nil]
      have ha : ∀ v, Gives key n a v → v = [] := fun v hv => by rw [(given_gives key n hk a).2 v hv, h]
      rcases ih with ⟨pre, b, post, v, e, h1, h2, h3, h4⟩ | ⟨h1, h2⟩
      · refine .inl ⟨a :: pre, b, post, v, by rw [e]; rfl, h1, h2, h3, ?_⟩
        intro c hc
        rcases List.mem_cons.1 hc with rfl | hc
        · exact ha
        · exact h4 c hc
      · refine .inr ⟨h1, ?_⟩
        intro c hc
        rcases List.mem_cons.1 hc with rfl | hc
        · exact ha
        · exact h2 c hc
    · refine .inl ⟨[], a, as, _, rfl, (given_gives key n hk a).1 h, h, ?_, by intro b hb; cases hb⟩
      have : (given key n a).take 63 ≠ [] := by
        intro e; apply h
        cases hg : given key n a with
        | nil => rfl
        | cons x l => rw [hg] at e; simp at e
      rw [keep, if_pos rfl]
      have := keep_set _ this (as.map (given key n))
      rwa [List.foldl_map] at this

/-- **C54.** Product and version of an instance are the first values, not empty,
of the keys `product` and `version` in a TXT answer for the instance, cut to 63
bytes; for all sequences of answers with names of at most 255 characters. -/
theorem C54_products_partial (np : Ntop) (as : List (Answer × Bool)) (hs : ∀ a ∈ as, Short a) :
    ∀ i ∈ (run np as {}).instances, FirstGiven kwProduct i.iname as i.product ∧
      FirstGiven kwVersion i.iname as i.version := by
  intro i hi
  have hk := fun m => inst_run np as hs {} m List.nodup_nil
  have h := find_of_mem Inst.iname _ (hk []).2 i hi
  rw [(hk i.iname).1] at h
  have hv := instStep_values i.iname (({} : Tables).instances.find? (·.iname == i.iname)) as
  dsimp only at hv
  rw [h] at hv
  simp only [Option.getD_some] at hv
  rw [hv.1, hv.2]
  exact ⟨first_given kwProduct _ (by decide) as, first_given kwVersion _ (by decide) as⟩

/-- Two TXT answers; the second has the version, and another product. -/
example : (run sampleNtop
    [({ name := [0x69], type := 16, ttl := 60, rdata := some (9 :: kwProduct ++ [0x3D, 0x41]) }, false),
     ({ name := [0x69], type := 16, ttl := 60,
        rdata := some (9 :: kwProduct ++ [0x3D, 0x42] ++ (9 :: kwVersion ++ [0x3D, 0x31])) }, false)] {}).instances.map
    (fun i => (i.product, i.version)) = [([0x41], [0x31])] := by decide +kernel

end Mdns.Mquery
