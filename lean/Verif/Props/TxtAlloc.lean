import Verif.Model.TxtAlloc
import Verif.Props.XhtAlloc
import Verif.Props.Service

/-!
# C114: TXT records when memory runs out
-/

namespace Mdns.SdTxt

open Mdns.Xht (Luck stepF storeF walkF newF lastFor)

/-- With enough memory `sd2txt` does as before. -/
theorem sd2txtF_enough (t : Xht.Table) : sd2txtF (some t) true = (some (sd2txt t).1, (sd2txt t).2) := by
  unfold sd2txtF sd2txt walkF
  simp only [if_true]
  split <;> rfl

/-- The calls of `xht_store` that the strings lead to. -/
private theorem loop_ops (mem : Bytes) (len : Nat) (h : len ≤ mem.length) :
    ∃ ops : List Xht.Op, (∀ t, txtLoop t mem len = .ok (Xht.run t ops)) ∧
      ∀ lucks : List Luck, ∃ ls : List (Xht.Op × Luck), (∀ i, ls[i]? = ops[i]?.map (·, lucks.getD i {})) ∧
        ∀ t, txtLoopF (some t) lucks mem len = .ok (some (ls.foldl stepF t)) := by
  induction len using Nat.strongRecOn generalizing mem with
  | ind len ih =>
  by_cases h0 : len = 0
  · subst h0
    exact ⟨[], fun t => by rw [txtLoop.eq_def]; rfl, fun lucks => ⟨[], fun i => by simp, fun t => by rw [txtLoopF.eq_def]; rfl⟩⟩
  cases mem with
  | nil => simp at h; omega
  | cons c rest =>
    by_cases h1 : c.toNat < len
    · by_cases h2 : c = 0
      · exact ⟨[], fun t => by rw [txtLoop.eq_def]; simp [h0, h2, Xht.run],
          fun lucks => ⟨[], fun i => by simp, fun t => by rw [txtLoopF.eq_def]; simp [h0, h2]⟩⟩
      · have h3 : ¬ rest.length < c.toNat := by simp only [List.length_cons] at h; omega
        obtain ⟨ops, e1, e2⟩ := ih (len - (c.toNat + 1)) (by omega) (rest.drop c.toNat) (by
          simp only [List.length_cons] at h
          simp only [List.length_drop]; omega)
        refine ⟨.store (splitEq (cstr (rest.take c.toNat))).1 (some (splitEq (cstr (rest.take c.toNat))).2) :: ops,
          fun t => ?_, fun lucks => ?_⟩
        · rw [txtLoop.eq_def]
          simp only [h0, h1, h2, h3, not_true_eq_false, if_false]
          rw [e1]
          rfl
        · obtain ⟨ls, f1, f3⟩ := e2 lucks.tail
          refine ⟨(.store (splitEq (cstr (rest.take c.toNat))).1 (some (splitEq (cstr (rest.take c.toNat))).2), lucks.headD {}) :: ls,
            fun i => ?_, fun t => ?_⟩
          · cases i with
            | zero => cases lucks <;> rfl
            | succ i =>
              rw [List.getElem?_cons_succ, List.getElem?_cons_succ, f1]
              cases lucks <;> rfl
          · rw [txtLoopF.eq_def]
            simp only [h0, h1, h2, h3, not_true_eq_false, if_false, Option.map_some]
            rw [f3]
            rfl
    · exact ⟨[], fun t => by rw [txtLoop.eq_def]; simp [h0, h1, Xht.run],
        fun lucks => ⟨[], fun i => by simp, fun t => by rw [txtLoopF.eq_def]; simp [h0, h1]⟩⟩

/-- Without a table the loop only reads. -/
private theorem loop_null (lucks : List Luck) (mem : Bytes) (len : Nat) (h : len ≤ mem.length) : txtLoopF none lucks mem len = .ok none := by
  induction len using Nat.strongRecOn generalizing mem lucks with
  | ind len ih =>
  rw [txtLoopF.eq_def]
  by_cases h0 : len = 0
  · simp [h0]
  cases mem with
  | nil => simp at h; omega
  | cons c rest =>
    by_cases h1 : c.toNat < len
    · by_cases h2 : c = 0
      · simp [h0, h2]
      · have h3 : ¬ rest.length < c.toNat := by simp only [List.length_cons] at h; omega
        simp only [h0, h1, h2, h3, not_true_eq_false, if_false, Option.map_none]
        exact ih _ (by omega) _ _ (by
          simp only [List.length_cons] at h
          simp only [List.length_drop]; omega)
    · simp [h0, h1]

/-- The string of a value. -/
def text : Xht.View → Bytes
  | .ptr _ s => s
  | .copy s => s

theorem text_view (o : Xht.Obj) : text (Xht.view o) = o.str := by
  unfold Xht.view
  cases o.addr <;> rfl

private theorem got_text {r : Option Xht.Table} {k : Bytes} : getOpt r k = ((Xht.getF r k).map Xht.view).map text := by
  unfold getOpt Xht.getF
  cases r with
  | none => rfl
  | some t =>
    show (Xht.get t k).map (·.str) = ((Xht.get t k).map Xht.view).map text
    cases Xht.get t k with
    | none => rfl
    | some o => exact congrArg some (text_view o).symm

/-- **C114, reading.** Whatever memory is refused, a TXT record is read within its bounds, and every key has the value that the strings with
memory for them give it: `ops` are the calls for the strings of the record, in order, `tries` says which allocations succeed in each,
and `done` is a part of them with all that got memory. -/
theorem C114_read (mem : Bytes) (len : Nat) (h : len ≤ mem.length) :
    ∃ ops : List Xht.Op,
      (∃ r, txt2sd mem len = .ok r ∧ ∀ k, getOpt r k = (lastFor k ops).map text) ∧
      ∀ lucks : List Luck, ∃ r, txt2sdF true true lucks mem len = .ok r ∧
        ∃ tries done : List (Xht.Op × Luck), (∀ i, tries[i]? = ops[i]?.map (·, lucks.getD i {})) ∧
          done.Sublist tries ∧ (tries.filter (fun o => o.2 = {})).Sublist done ∧ ∀ k, getOpt r k = (lastFor k (done.map (·.1))).map text := by
  have nothing : ∀ k, getOpt none k = (lastFor k []).map text := fun k => rfl
  by_cases h0 : len = 0
  · exact ⟨[], ⟨none, by simp [txt2sd, h0], nothing⟩,
      fun lucks => ⟨none, by simp [txt2sdF, h0], [], [], fun i => by simp, .slnil, .slnil, nothing⟩⟩
  cases mem with
  | nil => simp at h; omega
  | cons c rest =>
    by_cases h2 : c = 0
    · exact ⟨[], ⟨none, by simp [txt2sd, h0, h2], nothing⟩,
        fun lucks => ⟨none, by simp [txt2sdF, h0, h2], [], [], fun i => by simp, .slnil, .slnil, nothing⟩⟩
    · obtain ⟨ops, e1, e2⟩ := loop_ops (c :: rest) len h
      refine ⟨ops, ⟨some (Xht.run (Xht.new 23) ops), by simp [txt2sd, h0, h2, e1], fun k => ?_⟩, fun lucks => ?_⟩
      · rw [got_text]
        exact congrArg _ (Xht.C14_table_is_a_map 23 (by decide) ops k)
      · obtain ⟨ls, f1, f2⟩ := e2 lucks
        obtain ⟨done, d1, d2, d3⟩ := Xht.C110_values 23 (by decide) ls
        refine ⟨some (ls.foldl stepF (Xht.new 23)), by simp [txt2sdF, h0, h2, f2, newF], ls, done, f1, d1, d2, fun k => ?_⟩
        rw [got_text, ← d3 k]
        rfl

/-- **C114, reading.** Without a table there is no value for any key, and reading still ends within bounds. -/
theorem C114_read_null {table array : Bool} (hn : table = false ∨ array = false) (lucks : List Luck) (mem : Bytes) (len : Nat) (h : len ≤ mem.length) :
    txt2sdF table array lucks mem len = .ok none := by
  have : newF table array 23 = none := by
    rcases hn with rfl | rfl <;> simp [newF]
  unfold txt2sdF
  split
  · rfl
  · split
    · simp at h; omega
    · split
      · rfl
      · rw [this]; exact loop_null lucks _ len h

end Mdns.SdTxt

namespace Mdns.Conf

open Mdns.Xht (newF runF stepF)

/-- The lines of which something is published: a line is left out only if there was no memory for it. -/
inductive Kept (node : Nat → Bool) : Nat → List Bytes → List Bytes → Prop
  | nil (i : Nat) : Kept node i [] []
  | keep (i : Nat) (l : Bytes) (ls ks : List Bytes) (h : Kept node (i + 1) ls ks) : Kept node i (l :: ls) (l :: ks)
  | skip (i : Nat) (l : Bytes) (ls ks : List Bytes) (hn : node i = false) (h : Kept node (i + 1) ls ks) : Kept node i (l :: ls) ks

/-- As `Kept`, with a blank in place of a line that is left out. -/
private inductive Blanked (node : Nat → Bool) : Nat → List Bytes → List Bytes → Prop
  | nil (i : Nat) : Blanked node i [] []
  | keep (i : Nat) (l : Bytes) (ls ks : List Bytes) (h : Blanked node (i + 1) ls ks) : Blanked node i (l :: ls) (l :: ks)
  | skip (i : Nat) (l : Bytes) (ls ks : List Bytes) (hn : node i = false) (h : Blanked node (i + 1) ls ks) : Blanked node i (l :: ls) ([] :: ks)

private theorem blanked_table (node : Nat → Bool) (lines : List Bytes) (i : Nat) (t : Xht.Table) :
    ∃ ks, Blanked node i lines ks ∧ (txtOpsF node lines i).foldl stepF t = Xht.run t (txtOps ks i) := by
  induction lines generalizing i t with
  | nil => exact ⟨[], .nil i, rfl⟩
  | cons l lines ih =>
    by_cases hl : (0x3D : UInt8) ∈ l
    · rcases Xht.setNodeF_cases t ⟨.user (2 * i), l.takeWhile (· != 0x3D)⟩
        (some ⟨.user (2 * i + 1), (l.dropWhile (· != 0x3D)).drop 1⟩) false (node i) with e | ⟨hn, e⟩
      · obtain ⟨ks, h1, h2⟩ := ih (i + 1) (Xht.step t (.set (2 * i) (l.takeWhile (· != 0x3D)) (some (2 * i + 1, (l.dropWhile (· != 0x3D)).drop 1))))
        refine ⟨l :: ks, .keep i l lines ks h1, ?_⟩
        simp only [txtOpsF, txtOps, hl, if_true, List.foldl_cons]
        have e' : stepF t (.set (2 * i) (l.takeWhile (· != 0x3D)) (some (2 * i + 1, (l.dropWhile (· != 0x3D)).drop 1)), { node := node i }) =
          Xht.step t (.set (2 * i) (l.takeWhile (· != 0x3D)) (some (2 * i + 1, (l.dropWhile (· != 0x3D)).drop 1))) := e
        rw [e', h2]
        rfl
      · obtain ⟨ks, h1, h2⟩ := ih (i + 1) t
        refine ⟨[] :: ks, .skip i l lines ks hn h1, ?_⟩
        simp only [txtOpsF, txtOps, hl, if_true, List.foldl_cons, List.not_mem_nil, if_false]
        have e' : stepF t (.set (2 * i) (l.takeWhile (· != 0x3D)) (some (2 * i + 1, (l.dropWhile (· != 0x3D)).drop 1)), { node := node i }) = t := e
        rw [e', h2]
    · obtain ⟨ks, h1, h2⟩ := ih (i + 1) t
      refine ⟨l :: ks, .keep i l lines ks h1, ?_⟩
      simp only [txtOpsF, txtOps, hl, if_false]
      exact h2

private theorem value_cons {l k v : Bytes} {ls : List Bytes} :
    LineValue (l :: ls) k (some v) ↔ LineValue ls k (some v) ∨ (l = k ++ 0x3D :: v ∧ LineValue ls k none) := by
  constructor
  · rintro ⟨pre, post, e, h⟩
    cases pre with
    | nil =>
      injection e with e1 e2
      subst e2
      exact .inr ⟨e1, h⟩
    | cons a pre =>
      injection e with e1 e2
      exact .inl ⟨pre, post, e2, h⟩
  · rintro (⟨pre, post, e, h⟩ | ⟨e, h⟩)
    · exact ⟨l :: pre, post, by rw [e]; rfl, h⟩
    · exact ⟨[], ls, by rw [e]; rfl, h⟩

private theorem none_cons {l k : Bytes} {ls : List Bytes} :
    LineValue (l :: ls) k none ↔ (∀ v, l ≠ k ++ 0x3D :: v) ∧ LineValue ls k none := by
  constructor
  · exact fun h => ⟨h l List.mem_cons_self, fun x hx => h x (List.mem_cons_of_mem _ hx)⟩
  · rintro ⟨h1, h2⟩ x hx
    rcases List.mem_cons.1 hx with rfl | hx
    · exact h1
    · exact h2 x hx

private theorem blanked_kept {node : Nat → Bool} {i : Nat} {lines ks : List Bytes} (h : Blanked node i lines ks) :
    ∃ js, Kept node i lines js ∧ (∀ x ∈ ks, x = [] ∨ x ∈ lines) ∧ ∀ k r, LineValue ks k r → LineValue js k r := by
  induction h with
  | nil i => exact ⟨[], .nil i, by simp, fun _ _ h => h⟩
  | keep i l ls ks _ ih =>
    obtain ⟨js, h1, h2, h3⟩ := ih
    refine ⟨l :: js, .keep i l ls js h1, fun x hx => ?_, fun k r hv => ?_⟩
    · rcases List.mem_cons.1 hx with rfl | hx
      · exact .inr List.mem_cons_self
      · exact (h2 x hx).imp id (List.mem_cons_of_mem _)
    · cases r with
      | none =>
        obtain ⟨a, b⟩ := none_cons.1 hv
        exact none_cons.2 ⟨a, h3 k none b⟩
      | some v =>
        rcases value_cons.1 hv with a | ⟨a, b⟩
        · exact value_cons.2 (.inl (h3 k _ a))
        · exact value_cons.2 (.inr ⟨a, h3 k none b⟩)
  | skip i l ls ks hn _ ih =>
    obtain ⟨js, h1, h2, h3⟩ := ih
    refine ⟨js, .skip i l ls js hn h1, fun x hx => ?_, fun k r hv => ?_⟩
    · rcases List.mem_cons.1 hx with rfl | hx
      · exact .inl rfl
      · exact (h2 x hx).imp id (List.mem_cons_of_mem _)
    · cases r with
      | none => exact h3 k none (none_cons.1 hv).2
      | some v =>
        rcases value_cons.1 hv with a | ⟨a, _⟩
        · exact h3 k _ a
        · exact absurd a (by intro e; have := congrArg List.length e; simp at this)

private theorem all_ops (lines : List Bytes) (i : Nat) (t : Xht.Table) :
    (txtOpsF (fun _ => true) lines i).foldl stepF t = Xht.run t (txtOps lines i) := by
  obtain ⟨ks, h1, h2⟩ := blanked_table (fun _ => true) lines i t
  have : ks = lines := by
    clear h2
    generalize hn : (fun _ : Nat => true) = node at h1
    induction h1 with
    | nil => rfl
    | keep _ _ _ _ _ ih => rw [ih]
    | skip _ _ _ _ h => rw [← hn] at h; cases h
  rw [h2, this]

/-- **C114.** With enough memory the data are those of C63. -/
theorem C114_enough (s : SRec) : loadTxt s.txt {} = some (some s.txtData) := by
  unfold loadTxt
  have : runF (newF true true 11) (txtOpsF (fun _ => true) s.txt 0) = some (Xht.run (Xht.new 11) (txtOps s.txt 0)) := by
    show some ((txtOpsF (fun _ => true) s.txt 0).foldl stepF (Xht.new 11)) = _
    rw [all_ops]
  show setRawF (SdTxt.sd2txtF (runF (newF true true 11) (txtOpsF (fun _ => true) s.txt 0)) true).1 true = _
  rw [this, SdTxt.sd2txtF_enough]
  rfl

/-- **C114.** The data of the record are read from NULL exactly if `sd2txt` gets no memory and the copy in the record does. -/
theorem C114_exact (lines : List Bytes) (l : TxtLuck) : loadTxt lines l = none ↔ l.packet = false ∧ l.copy = true := by
  unfold loadTxt setRawF SdTxt.sd2txtF
  cases l.packet <;> cases l.copy <;> simp <;> split <;> rename_i h <;> first | (simp; done) | (split at h <;> cases h) | simp_all

/-- **C114.** Whatever memory is refused while the TXT record of a service is made: if it gets data and a table could be made, then who decodes
them finds for every key the value of the last line with that key, of the lines for which there was memory.  Missing: a table
(`C114_empty_counterexample`), data (`C114_null_counterexample`), and lines with an empty key (C63). -/
theorem C114_published_partial (file : Bytes) (s : SRec) (hp : parse file = .ok s) (hk : ∀ x ∈ s.txt, x.head? ≠ some 0x3D)
    (l : TxtLuck) (ht : l.table = true ∧ l.array = true) (b : Bytes) (hb : loadTxt s.txt l = some (some b)) :
    ∃ lines, Kept l.node 0 s.txt lines ∧
      ∃ r, SdTxt.txt2sd b b.length = .ok r ∧ ∀ k, (0x3D : UInt8) ∉ k → LineValue lines k (SdTxt.getOpt r k) := by
  obtain ⟨ks, h1, h2⟩ := blanked_table l.node s.txt 0 (Xht.new 11)
  obtain ⟨js, j1, j2, j3⟩ := blanked_kept h1
  have hf : TxtFits s := parseLoop_txtFits _ _ _ _ hp (by intro t ht; cases ht)
  have e : b = ({ s with txt := ks } : SRec).txtData := by
    have hr : runF (newF l.table l.array 11) (txtOpsF l.node s.txt 0) = some (Xht.run (Xht.new 11) (txtOps ks 0)) := by
      rw [ht.1, ht.2]
      show some ((txtOpsF l.node s.txt 0).foldl stepF (Xht.new 11)) = _
      rw [h2]
    unfold loadTxt at hb
    rw [hr] at hb
    cases hc : l.copy with
    | false => rw [hc] at hb; simp [setRawF] at hb
    | true =>
      cases hq : l.packet with
      | false =>
        have := (C114_exact s.txt l).2 ⟨hq, hc⟩
        unfold loadTxt at this
        rw [hr, hb] at this
        cases this
      | true =>
        rw [hc, hq, SdTxt.sd2txtF_enough] at hb
        exact (Option.some.inj (Option.some.inj hb)).symm
  obtain ⟨r, r1, r2⟩ := txt_decoded { s with txt := ks }
    (fun x hx => by
      rcases j2 x hx with rfl | hm
      · simp
      · exact hf x hm)
    (fun x hx => by
      rcases j2 x hx with rfl | hm
      · simp
      · exact hk x hm)
  exact ⟨js, j1, r, by rw [e]; exact r1, fun k hk' => j3 k _ (r2 k hk')⟩

/-- **C114, counterexample.** Whatever the file has: without memory for the table an empty TXT record is published, and nothing is reported. -/
theorem C114_empty_counterexample (lines : List Bytes) (l : TxtLuck) (h : l.table = false ∨ l.array = false) (hp : l.packet = true) (hc : l.copy = true) :
    loadTxt lines l = some (some [0]) := by
  have : newF l.table l.array 11 = none := by
    rcases h with e | e <;> simp [newF, e]
  unfold loadTxt
  rw [this, hp, hc]
  rfl

/-- **C114, counterexample.** Whatever the file has: without memory for the data they are read from NULL. -/
theorem C114_null_counterexample (lines : List Bytes) (l : TxtLuck) (hp : l.packet = false) (hc : l.copy = true) : loadTxt lines l = none :=
  (C114_exact lines l).2 ⟨hp, hc⟩

/-! ### Cases -/

/-- `a=1`, `l=2`, `a=3` of which the third gets no node, which it does not need; then the second, which is left out. -/
example : loadTxt [[0x61, 0x3D, 0x31], [0x6C, 0x3D, 0x32], [0x61, 0x3D, 0x33]] { node := fun i => i != 2 } =
      loadTxt [[0x61, 0x3D, 0x31], [0x6C, 0x3D, 0x32], [0x61, 0x3D, 0x33]] {} ∧
    loadTxt [[0x61, 0x3D, 0x31], [0x6C, 0x3D, 0x32], [0x61, 0x3D, 0x33]] { node := fun i => i != 1 } = some (some [3, 0x61, 0x3D, 0x33]) := by
  decide +kernel

/-- A record of which one string gets no memory for its value. -/
example : (match SdTxt.txt2sdF true true [{}, { val := false }] [3, 0x61, 0x3D, 0x31, 3, 0x62, 0x3D, 0x32, 1, 0x63] 10 with
    | .ok r => [[0x61], [0x62], [0x63]].map (SdTxt.getOpt r)
    | .oob => []) = [some [0x31], none, some []] := by decide +kernel

end Mdns.Conf
