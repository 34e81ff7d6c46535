import Verif.Model.Buffers
import Verif.Props.Conf

/-!
# C107: strings put together in buffers

Names and paths are copied into buffers of a fixed size.  They are cut if they do not fit, always end with a zero byte, and
nothing outside of the buffer is read or written.
-/

namespace Mdns.Buf

@[simp] theorem bind_ok {α β : Type} (a : α) (f : α → R β) : (R.ok a >>= f) = f a := rfl
@[simp] theorem bind_oob {α β : Type} (f : α → R β) : ((.oob : R α) >>= f) = .oob := rfl

theorem rd_at (a b : Bytes) (x : UInt8) : rd (a ++ x :: b) a.length = .ok x := by
  unfold rd
  rw [List.getElem?_append_right (Nat.le_refl _), Nat.sub_self]
  rfl

theorem wr_at (a b : Bytes) (x c : UInt8) : wr (a ++ x :: b) a.length c = .ok (a ++ c :: b) := by
  unfold wr
  rw [if_pos (by simp), List.set_append_right _ _ (Nat.le_refl _), Nat.sub_self]
  rfl

theorem copy_fits (src post : Bytes) : ∀ (n : Nat) (t : Bytes) (dst a b : Bytes), 0 ∉ t → t.length < n → n < b.length → dst = a ++ b →
    ∀ p, src = p ++ t ++ 0 :: post →
    copy src (n + 1) a.length p.length dst = .ok (n - t.length, a.length + t.length + 1, p.length + t.length + 1, a ++ t ++ 0 :: b.drop (t.length + 1)) := by
  intro n
  induction n with
  | zero => intro t _ _ _ _ h; omega
  | succ n ih =>
    intro t dst a b hz hn hb hd p hs
    subst hd hs
    obtain ⟨x, b, rfl⟩ : ∃ x y, b = x :: y := by
      cases b with
      | nil => simp at hb
      | cons x y => exact ⟨x, y, rfl⟩
    cases t with
    | nil =>
      unfold copy
      simp [rd_at, wr_at]
    | cons y t =>
      have hy : y ≠ 0 := fun h => hz (by simp [h])
      unfold copy
      have e1 : rd (p ++ (y :: t) ++ 0 :: post) p.length = .ok y := by
        rw [List.append_assoc]
        exact rd_at p _ y
      simp only [Nat.add_one_ne_zero, if_false, e1, wr_at, bind_ok, hy]
      have := ih t ((a ++ [y]) ++ b) (a ++ [y]) b (fun h => hz (by simp [h])) (by simp at hn; omega) (by simp at hb; omega) rfl (p ++ [y])
        (by simp)
      simp only [List.length_append, List.length_singleton] at this
      simp only [List.append_assoc, List.cons_append, List.length_cons, List.drop_succ_cons, List.nil_append] at this ⊢
      rw [this]
      simp
      omega

theorem copy_cut (src post : Bytes) : ∀ (n : Nat) (t : Bytes) (a b : Bytes), 0 ∉ t → n ≤ t.length → n < b.length →
    ∀ p, src = p ++ t ++ post →
    copy src (n + 1) a.length p.length (a ++ b) = .ok (0, a.length + n, p.length + n, a ++ t.take n ++ b.drop n) := by
  intro n
  induction n with
  | zero =>
    intro t a b _ _ _ p _
    unfold copy
    simp
  | succ n ih =>
    intro t a b hz hn hb p hs
    subst hs
    obtain ⟨x, b, rfl⟩ : ∃ x y, b = x :: y := by
      cases b with
      | nil => simp at hb
      | cons x y => exact ⟨x, y, rfl⟩
    cases t with
    | nil => simp at hn
    | cons y t =>
      have hy : y ≠ 0 := fun h => hz (by simp [h])
      unfold copy
      have e1 : rd (p ++ (y :: t) ++ post) p.length = .ok y := by
        rw [List.append_assoc]
        exact rd_at p _ y
      simp only [Nat.add_one_ne_zero, if_false, e1, wr_at, bind_ok, hy]
      have := ih t (a ++ [y]) b (fun h => hz (by simp [h])) (by simp at hn; omega) (by simp at hb; omega) (p ++ [y]) (by simp)
      simp only [List.length_append, List.length_singleton] at this
      simp only [List.append_assoc, List.cons_append, List.take_succ_cons, List.drop_succ_cons, List.nil_append] at this ⊢
      rw [this]
      simp
      omega

theorem skip_end (src post : Bytes) : ∀ (t p : Bytes) (n : Nat), 0 ∉ t → t.length < n → src = p ++ t ++ 0 :: post →
    skip src n p.length = .ok (p.length + t.length + 1) := by
  intro t
  induction t with
  | nil =>
    intro p n _ hn hs
    subst hs
    cases n with
    | zero => simp at hn
    | succ n =>
      unfold skip
      simp [rd_at]
  | cons y t ih =>
    intro p n hz hn hs
    subst hs
    cases n with
    | zero => simp at hn
    | succ n =>
      have hy : y ≠ 0 := fun h => hz (by simp [h])
      unfold skip
      have e1 : rd (p ++ (y :: t) ++ 0 :: post) p.length = .ok y := by
        rw [List.append_assoc]
        exact rd_at p _ y
      simp only [e1, bind_ok, hy, if_false]
      have := ih (p ++ [y]) n (fun h => hz (by simp [h])) (by simp at hn; omega) (by simp)
      simp only [List.length_append, List.length_singleton] at this
      rw [this]
      simp
      omega

/-- C107: for every string and every size, `strlcpy` reads the string and its end only, writes only within the size given,
returns the length of the string, and leaves as much of the string as fits, with a zero byte behind it. -/
theorem C107_strlcpy (p t post a b c : Bytes) (hz : 0 ∉ t) :
    strlcpy (a ++ b ++ c) a.length (p ++ t ++ 0 :: post) p.length b.length =
      .ok (t.length, a ++ (if b = [] then [] else t.take (b.length - 1) ++ 0 :: b.drop (min t.length (b.length - 1) + 1)) ++ c) := by
  unfold strlcpy
  have sk : ∀ k, k ≤ t.length → skip (p ++ t ++ 0 :: post) ((p ++ t ++ 0 :: post).length + 1) (p.length + k) = .ok (p.length + t.length + 1) := by
    intro k hk
    have := skip_end (p ++ t ++ 0 :: post) post (t.drop k) (p ++ t.take k) ((p ++ t ++ 0 :: post).length + 1)
      (fun h => hz (List.mem_of_mem_drop h)) (by simp; omega) (by simp)
    simp only [List.length_append, List.length_take, Nat.min_eq_left hk, List.length_drop] at this
    simp only [List.length_append]
    rw [this]
    congr 1
    omega
  cases b with
  | nil =>
    have := sk 0 (Nat.zero_le _)
    simp only [Nat.add_zero] at this
    simp only [List.length_nil, ne_eq, not_true, if_false, bind_ok, if_true, this]
    simp
    omega
  | cons x b =>
    have hb : (x :: b).length = b.length + 1 := rfl
    rw [hb]
    simp only [ne_eq, Nat.add_one_ne_zero, not_false_iff, if_true, Nat.add_sub_cancel, reduceCtorEq, if_false]
    by_cases h : t.length < b.length
    · have e := copy_fits (p ++ t ++ 0 :: post) post b.length t (a ++ (x :: b ++ c)) a (x :: b ++ c) hz h (by simp; omega) rfl p rfl
      rw [List.append_assoc a, e]
      have n0 : b.length - t.length ≠ 0 := by omega
      simp only [bind_ok, n0, if_false]
      rw [Nat.min_eq_left (Nat.le_of_lt h), List.take_of_length_le (Nat.le_of_lt h), List.cons_append, List.drop_succ_cons, List.drop_succ_cons,
        List.drop_append_of_le_length (Nat.le_of_lt h)]
      simp
      omega
    · have hl : b.length ≤ t.length := by omega
      have e := copy_cut (p ++ t ++ 0 :: post) (0 :: post) b.length t a (x :: b ++ c) hz hl (by simp; omega) p rfl
      rw [List.append_assoc a, e]
      simp only [bind_ok, if_true]
      obtain ⟨z, hd⟩ : ∃ z, (x :: b ++ c).drop b.length = z :: c := by
        rw [List.drop_append_of_le_length (by simp)]
        have : ((x :: b).drop b.length).length = 1 := by simp
        obtain ⟨z, hz⟩ := List.length_eq_one_iff.mp this
        exact ⟨z, by rw [hz]; rfl⟩
      rw [hd]
      have w := wr_at (a ++ t.take b.length) c z 0
      rw [List.length_append, List.length_take, Nat.min_eq_left hl] at w
      rw [w]
      simp only [bind_ok]
      rw [sk b.length hl]
      simp only [bind_ok, Nat.min_eq_right hl, List.drop_succ_cons, List.drop_length]
      simp
      omega

theorem strlen_at (t post : Bytes) (hz : 0 ∉ t) : strlen (t ++ 0 :: post) 0 = .ok t.length := by
  unfold strlen
  have := skip_end (t ++ 0 :: post) post t [] ((t ++ 0 :: post).length + 1) hz (by simp; omega) rfl
  rw [List.length_nil] at this
  rw [this]
  simp

theorem puts_at : ∀ (t a b c : Bytes), b.length = t.length → puts (a ++ b ++ c) a.length t = .ok (a ++ t ++ c)
  | [], a, b, c, h => by
    cases b with
    | nil => unfold puts; rfl
    | cons => simp at h
  | y :: t, a, b, c, h => by
    cases b with
    | nil => simp at h
    | cons x b =>
      unfold puts
      rw [List.append_assoc, List.cons_append, wr_at, bind_ok]
      have := puts_at t (a ++ [y]) b c (by simpa using h)
      simp only [List.length_append, List.length_singleton, List.append_assoc, List.cons_append, List.nil_append] at this ⊢
      exact this

theorem strcat_at (s t post : Bytes) (hz : 0 ∉ s) (h : t.length ≤ post.length) :
    strcat (s ++ 0 :: post) t = .ok (s ++ t ++ 0 :: post.drop t.length) := by
  unfold strcat
  rw [strlen_at _ _ hz, bind_ok]
  have := puts_at (t ++ [0]) s (0 :: post.take t.length) (post.drop t.length) (by simp; omega)
  have e : s ++ 0 :: post.take t.length ++ post.drop t.length = s ++ 0 :: post := by simp
  rw [e] at this
  rw [this]
  simp

/-- Where the name comes from, and the name.  `gethostname` has to leave a zero byte in the buffer. -/
inductive Source.Gives : Source → Bytes → Prop
  | given (t post : Bytes) (hz : 0 ∉ t) : Gives (.given (t ++ 0 :: post)) t
  | failed : Gives .failed [0x64, 0x65, 0x66, 0x61, 0x75, 0x6C, 0x74]
  | system (t post : Bytes) (hz : 0 ∉ t) (h : (t ++ 0 :: post).length = 255) : Gives (.system (t ++ 0 :: post)) t

theorem base_ok {buf : Bytes} (hb : buf.length = 255) {src : Source} {t : Bytes} (h : src.Gives t) :
    ∃ post, base buf src = .ok (CLib.strlcpy t 255 ++ 0 :: post) ∧ (CLib.strlcpy t 255 ++ 0 :: post).length = 255 ∧ 0 ∉ t := by
  have ne : buf ≠ [] := fun e => by rw [e] at hb; simp at hb
  have key : ∀ (t post : Bytes), 0 ∉ t → strlcpy buf 0 (t ++ 0 :: post) 0 255 =
      .ok (t.length, CLib.strlcpy t 255 ++ 0 :: buf.drop (min t.length 254 + 1)) := by
    intro t post hz
    have := C107_strlcpy [] t post [] buf [] hz
    rw [hb, if_neg ne] at this
    simpa [CLib.strlcpy] using this
  have len : ∀ t : Bytes, (CLib.strlcpy t 255 ++ 0 :: buf.drop (min t.length 254 + 1)).length = 255 := by
    intro t
    simp only [CLib.strlcpy, List.length_append, List.length_take, List.length_cons, List.length_drop, hb]
    omega
  cases h with
  | given t post hz =>
    refine ⟨_, ?_, len t, hz⟩
    show (do let (_, b) ← strlcpy buf 0 (t ++ 0 :: post) 0 255; R.ok b) = _
    rw [key t post hz]
    rfl
  | failed =>
    refine ⟨_, ?_, len _, by decide⟩
    show (do let (_, b) ← strlcpy buf 0 [0x64, 0x65, 0x66, 0x61, 0x75, 0x6C, 0x74, 0] 0 255; R.ok b) = _
    rw [show ([0x64, 0x65, 0x66, 0x61, 0x75, 0x6C, 0x74, 0] : Bytes) = [0x64, 0x65, 0x66, 0x61, 0x75, 0x6C, 0x74] ++ 0 :: [] from rfl,
      key _ _ (by decide)]
    rfl
  | system t post hz h =>
    have e : CLib.strlcpy t 255 = t := List.take_of_length_le (by simp at h; omega)
    refine ⟨post, ?_, by rw [e]; exact h, hz⟩
    rw [e]
    rfl

/-- C107: the host name is put together inside of its buffer of 255 bytes, whatever the name and the number: it is the name, cut so that
the number fits behind it, and ends with a zero byte. -/
theorem C107_hostname {buf suffix : Bytes} (hb : buf.length = 255) (hs : suffix.length = 16) {src : Source} {t : Bytes} (h : src.Gives t)
    (hostid : Nat) (hi : hostid < 2 ^ 31) :
    ∃ post, hostname buf suffix src hostid = .ok (Conf.hostname t hostid ++ 0 :: post) ∧ (Conf.hostname t hostid ++ 0 :: post).length = 255 := by
  obtain ⟨post, e, hl, hz⟩ := base_ok hb h
  unfold hostname Conf.hostname
  rw [e]
  simp only [bind_ok]
  by_cases h1 : hostid > 1
  · rw [if_pos h1, if_pos h1]
    have hd : (CLib.decimal hostid).length ≤ 10 := Conf.decimal_length hostid 10 (by omega) (by omega)
    have hzd : (0 : UInt8) ∉ 0x2D :: CLib.decimal hostid := by
      intro m
      rcases List.mem_cons.mp m with m | m
      · cases m
      · have := Conf.decimal_isDigit hostid _ m
        revert this
        decide
    have hsn : CLib.snprintf (0x2D :: CLib.decimal hostid) 16 = 0x2D :: CLib.decimal hostid :=
      List.take_of_length_le (by simp; omega)
    generalize ht : 0x2D :: CLib.decimal hostid = text at *
    have htl : text.length ≤ 11 := by rw [← ht]; simp; omega
    generalize hh : CLib.strlcpy t 255 = w at *
    have hzw : 0 ∉ w := by rw [← hh]; exact fun m => hz (List.mem_of_mem_take m)
    have p := puts_at (text ++ [0]) [] (suffix.take (text.length + 1)) (suffix.drop (text.length + 1)) (by simp; omega)
    simp only [List.nil_append, List.length_nil, List.take_append_drop, List.append_assoc, List.cons_append] at p
    simp only [hsn, p, bind_ok, strlen_at w post hzw]
    generalize hlen : (if w.length + (text.length + 1) ≥ 255 then 255 - (text.length + 1) else w.length) = k
    have hk : k ≤ w.length ∧ k + text.length + 1 ≤ 255 := by
      rw [← hlen]
      simp at hl
      split <;> omega
    have c := C107_strlcpy [] text (suffix.drop (text.length + 1)) (w.take k) ((w ++ 0 :: post).drop k) [] hzd
    have e1 : w.take k ++ (w ++ 0 :: post).drop k ++ [] = w ++ 0 :: post := by
      rw [List.append_nil, ← List.take_append_of_le_length hk.1 (l₂ := 0 :: post), List.take_append_drop]
    have e2 : ((w ++ 0 :: post).drop k).length = 255 - k := by rw [List.length_drop, hl]
    have e3 : (w ++ 0 :: post).drop k ≠ [] := fun e => by rw [e] at e2; simp at e2; omega
    rw [e1, e2, if_neg e3, List.length_take, Nat.min_eq_left hk.1] at c
    simp only [List.nil_append, List.length_nil, List.append_nil] at c
    rw [c]
    refine ⟨((w ++ 0 :: post).drop k).drop (min text.length (255 - k - 1) + 1), ?_, ?_⟩
    · simp [CLib.strlcpy]
    · simp only [CLib.strlcpy, List.length_append, List.length_take, List.length_cons, List.length_drop, e2]
      simp at hl
      omega
  · rw [if_neg h1, if_neg h1]
    exact ⟨post, rfl, hl⟩

/-- C107: the pattern for the files of a directory fits its buffer, whatever the path. -/
theorem C107_pattern (pat t post : Bytes) (hz : 0 ∉ t) (ht : t ≠ []) (hp : pat.length = t.length + 64) :
    ∃ r, pattern pat (t ++ 0 :: post) t.length = .ok (Glob.pattern t ++ 0 :: r) ∧ (Glob.pattern t ++ 0 :: r).length = pat.length := by
  have ne : pat ≠ [] := fun e => by rw [e] at hp; simp at hp
  have s := C107_strlcpy [] t post [] pat [] hz
  rw [hp, if_neg ne] at s
  have tk : t.take (t.length + 64 - 1) = t := List.take_of_length_le (by omega)
  simp only [List.nil_append, List.length_nil, List.append_nil, tk, show min t.length (t.length + 64 - 1) = t.length by omega] at s
  have hr : (pat.drop (t.length + 1)).length = 63 := by rw [List.length_drop, hp]; omega
  generalize pat.drop (t.length + 1) = r at *
  unfold pattern Glob.pattern
  rw [s]
  have n0 : t.length ≠ 0 := fun e => ht (List.length_eq_zero_iff.mp e)
  have rdl : rd (t ++ 0 :: r) (t.length - 1) = .ok (t.getLast ht) := by
    have := rd_at t.dropLast (0 :: r) (t.getLast ht)
    rw [List.length_dropLast] at this
    have e : t.dropLast ++ t.getLast ht :: 0 :: r = t ++ 0 :: r := by
      conv => rhs; rw [← List.dropLast_concat_getLast ht]
      simp
    rwa [e] at this
  simp only [bind_ok, n0, if_false, rdl]
  rw [List.getLast?_eq_some_getLast ht]
  have ss : starService.length = 9 := rfl
  by_cases h : t.getLast ht = 0x2F
  · simp only [h, ne_eq, not_true, if_false, bind_ok]
    rw [strcat_at _ _ _ hz (by rw [ss, hr]; omega)]
    refine ⟨r.drop 9, by simp [starService, Glob.dotService], ?_⟩
    simp [Glob.dotService, hr, hp]
  · have h' : ¬ some (t.getLast ht) = some (0x2F : UInt8) := fun e => h (Option.some.inj e)
    simp only [h, h', ne_eq, not_false_iff, if_true, bind_ok]
    rw [strcat_at _ _ _ hz (by simp; omega)]
    simp only [bind_ok]
    rw [strcat_at _ _ _ (by intro m; rcases List.mem_append.mp m with m | m; exact hz m; simp at m) (by simp [ss, hr])]
    refine ⟨(r.drop 1).drop 9, by simp [starService, Glob.dotService], ?_⟩
    simp [Glob.dotService, hr, hp]

/-! ### Concrete cases and counterexamples -/

/-- C107: the buffer is filled, 254 characters of a name of 300; and with a number, 251 of them. -/
example : (hostname (List.replicate 255 7) (List.replicate 16 9) (.given (List.replicate 300 97 ++ 0 :: [5])) 1 =
      .ok (List.replicate 254 97 ++ [0])) ∧
    hostname (List.replicate 255 7) (List.replicate 16 9) (.given (List.replicate 300 97 ++ 0 :: [5])) 12 =
      .ok (List.replicate 251 97 ++ [0x2D, 0x31, 0x32, 0]) := by decide +kernel

/-- C107: a size of zero leaves the buffer alone, and what is behind the size given is not touched. -/
example : strlcpy [1, 2, 3, 4] 1 [97, 98, 99, 0] 0 0 = .ok (3, [1, 2, 3, 4]) ∧
    strlcpy [1, 2, 3, 4] 1 [97, 98, 99, 0] 0 2 = .ok (3, [1, 97, 0, 4]) := by decide +kernel

/-- C107: the pattern for `/e`. -/
example : pattern (List.replicate 66 7) [0x2F, 0x65, 0] 2 = .ok ([0x2F, 0x65, 0x2F] ++ starService ++ 0 :: List.replicate 53 7) := by decide +kernel

/-- C107 is false in full: POSIX allows `gethostname` to leave a buffer without a zero byte for a name that does not fit; then the memory behind the
buffer is read (`src/conf.c:297`). -/
theorem C107_system_counterexample : ∃ b : Bytes, b.length = 255 ∧ hostname (List.replicate 255 0) (List.replicate 16 0) (.system b) 2 = .oob :=
  ⟨List.replicate 255 97, by decide +kernel, by decide +kernel⟩

/-- C107 is false in full: where `glob` does not know `~`, its replacement writes behind the buffer if the home directory has a long name
(`src/conf.c:333`); the path is `~/s`. -/
theorem C107_home_counterexample : ∃ home : Bytes, 0 ∉ home ∧
    (pattern (List.replicate 67 0) [0x7E, 0x2F, 0x73, 0] 3 >>= fun pat => tilde pat home 3) = .oob :=
  ⟨List.replicate 65 97, by decide +kernel, by decide +kernel⟩

/-- C107: and otherwise the name is spoilt, as the home directory is put in front of the `~` and the end of the pattern is overwritten: with `/h` as home
directory the pattern `~/s/*.service` becomes `/h~/s.service` (`src/conf.c:333-334`). -/
theorem C107_tilde_counterexample :
    (pattern (List.replicate 67 0) [0x7E, 0x2F, 0x73, 0] 3 >>= fun pat => tilde pat [0x2F, 0x68] 3) =
      .ok ([0x2F, 0x68, 0x7E, 0x2F, 0x73] ++ [0x2E, 0x73, 0x65, 0x72, 0x76, 0x69, 0x63, 0x65] ++ List.replicate 54 0) := by decide +kernel

end Mdns.Buf
