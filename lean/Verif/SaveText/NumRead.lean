import Verif.SaveText.NumRound

/-!
# Reading back the text of a number
-/

namespace Verif.SaveText

/-- Every character of `s`, after the character `p`, belongs to the same numeric literal. -/
def okNum : Char → List Char → Bool
  | _, [] => true
  | p, c :: s => (c.isDigit || c == '.' || c == 'e' || ((c == '+' || c == '-') && p == 'e')) && okNum c s

/-- A text the reader takes as one numeric literal. -/
def NumText (t : List Char) : Prop := ∃ c s, t = c :: s ∧ c.isDigit = true ∧ okNum c s = true

theorem okNum_digits {a : List Char} (h : ∀ c ∈ a, c.isDigit = true) {r : List Char} (hr : ∀ q, okNum q r = true) (p : Char) : okNum p (a ++ r) = true := by
  induction a generalizing p with
  | nil => exact hr p
  | cons c a ih =>
    simp [okNum, h c List.mem_cons_self, ih (fun c hc => h c (List.mem_cons_of_mem _ hc))]

theorem okNum_all {a : List Char} (h : ∀ c ∈ a, c.isDigit = true) (p : Char) : okNum p a = true := by
  have := okNum_digits h (r := []) (fun _ => rfl) p
  rwa [List.append_nil] at this

theorem okNum_exp (X : ℤ) (q : Char) : okNum q ('e' :: expText X) = true := by
  have hd : ∀ c ∈ (if X.natAbs < 100 then digs 2 X.natAbs else dec X.natAbs), c.isDigit = true := by
    split
    · exact digs_digit _ _
    · exact dec_digit _
  unfold expText
  split <;> simp [okNum, okNum_all hd]

theorem numText_digits {a r : List Char} (h : ∀ c ∈ a, c.isDigit = true) (hne : a ≠ []) (hr : ∀ q, okNum q r = true) : NumText (a ++ r) := by
  cases a with
  | nil => exact absurd rfl hne
  | cons c a =>
    exact ⟨c, a ++ r, rfl, h c List.mem_cons_self, okNum_digits (fun c hc => h c (List.mem_cons_of_mem _ hc)) hr c⟩

theorem okNum_frac {b r : List Char} (h : ∀ c ∈ b, c.isDigit = true) (hr : ∀ q, okNum q r = true) (p : Char) : okNum p (frac b ++ r) = true := by
  unfold frac
  split
  · exact hr p
  · simp [okNum, okNum_digits h hr]

section
variable {m : ℕ} (h1 : 10 ^ 8 ≤ m) (h2 : m < 10 ^ 9)

include h1 h2

theorem digs9_take (k : ℕ) : ((digs 9 m).take (k + 1)).head? ≠ some '0' := by
  rw [List.head?_take, if_neg (by omega), digs_head]
  have h3 : m / 10 ^ 8 < 10 := by omega
  have h4 : 0 < m / 10 ^ 8 := Nat.div_pos h1 (by norm_num)
  rw [Nat.mod_eq_of_lt h3]
  simp only [ne_eq, Option.some.injEq]
  exact dig_ne_zero h3 (by omega)

omit h1 in
theorem digs9_split (k : ℕ) : dval ((digs 9 m).take k) * 10 ^ (9 - k) + dval ((digs 9 m).drop k) = m ∧ dval ((digs 9 m).drop k) < 10 ^ (9 - k) := by
  have hl : ((digs 9 m).drop k).length = 9 - k := by simp [digs_length]
  constructor
  · rw [← hl, ← dval_append, List.take_append_drop, dval_digs_lt h2]
  · have : ∀ l : List Char, (∀ c ∈ l, c.isDigit = true) → dval l < 10 ^ l.length := by
      intro l
      induction l with
      | nil => simp [dval]
      | cons c l ih =>
        intro h
        have hc := h c List.mem_cons_self
        have hl := ih fun c hc => h c (List.mem_cons_of_mem _ hc)
        rw [← List.singleton_append, dval_append, List.length_append, List.length_singleton, pow_add, pow_one]
        have : dval [c] ≤ 9 := by
          simp only [dval, List.foldl_cons, List.foldl_nil, Nat.mul_zero, Nat.zero_add]
          simp only [Char.isDigit, Bool.and_eq_true, decide_eq_true_eq] at hc
          have h57 : c.toNat ≤ 57 := hc.2
          omega
        nlinarith
    have := this ((digs 9 m).drop k) fun c hc => digs_digit _ _ c (List.mem_of_mem_drop hc)
    rwa [hl] at this

theorem read_gText (X : ℤ) : ∃ l, readNum (gText m X) = some l ∧ l.val = m * 10 ^ (X - 8) ∧ NumText (gText m X) ∧
    (l.isInt = true ↔ (∃ z : ℤ, (m : ℚ) * 10 ^ (X - 8) = z) ∧ (m : ℚ) * 10 ^ (X - 8) < 10 ^ 9) := by
  have hd := digs_digit 9 m
  have hlen := digs_length 9 m
  have hdt : ∀ k, ∀ c ∈ (digs 9 m).take k, c.isDigit = true := fun k c hc => hd c (List.mem_of_mem_take hc)
  have hdd : ∀ k, ∀ c ∈ (digs 9 m).drop k, c.isDigit = true := fun k c hc => hd c (List.mem_of_mem_drop hc)
  have hne : ∀ k, (digs 9 m).take (k + 1) ≠ [] := by
    intro k h
    have := congrArg List.length h
    simp [hlen] at this
  have hpos : (0 : ℚ) < m := by exact_mod_cast (by omega : 0 < m)
  unfold gText
  split
  next hX =>
    split
    next h0 =>
      obtain ⟨k, rfl⟩ := Int.eq_ofNat_of_zero_le h0
      have hk : k < 9 := by omega
      have ek : ((k : ℤ)).toNat = k := by simp
      rw [ek]
      obtain ⟨e1, e2⟩ := digs9_split h2 (k + 1)
      have hval : (dval ((digs 9 m).take (k + 1) ++ (digs 9 m).drop (k + 1)) : ℚ) / 10 ^ ((digs 9 m).drop (k + 1)).length = m * 10 ^ ((k : ℤ) - 8) := by
        rw [List.take_append_drop, dval_digs_lt h2, List.length_drop, hlen]
        have : (k : ℤ) - 8 = -((9 - (k + 1) : ℕ) : ℤ) := by omega
        rw [this, zpow_neg, zpow_natCast]
        rfl
      have hvalpos : (m : ℚ) * 10 ^ ((k : ℤ) - 8) < 10 ^ 9 := by
        have : (10 : ℚ) ^ ((k : ℤ) - 8) ≤ 1 := zpow_le_one_of_nonpos₀ (by norm_num) (by omega)
        have hm9 : (m : ℚ) < 10 ^ 9 := by exact_mod_cast h2
        nlinarith
      by_cases hs : stripZ ((digs 9 m).drop (k + 1)) = []
      · have h0' := (strip_nil (hdd (k + 1))).1 hs
        refine ⟨.int (dval ((digs 9 m).take (k + 1))), ?_, ?_, ?_, ?_⟩
        · rw [hs]
          simp only [frac, if_true, List.append_nil]
          exact read_int (hdt _) (hne k) (Or.inl (digs9_take h1 h2 k))
        · have hz := strip_val ((digs 9 m).take (k + 1)) ((digs 9 m).drop (k + 1))
          rw [hval, hs] at hz
          simpa [Lit.val] using hz
        · exact numText_digits (hdt _) (hne k) fun q => by rw [hs]; rfl
        · simp only [Lit.isInt, true_iff]
          refine ⟨⟨dval ((digs 9 m).take (k + 1)), ?_⟩, hvalpos⟩
          have hz := strip_val ((digs 9 m).take (k + 1)) ((digs 9 m).drop (k + 1))
          rw [hval, hs] at hz
          rw [← hz]
          simp
      · refine ⟨.flt (dval ((digs 9 m).take (k + 1) ++ stripZ ((digs 9 m).drop (k + 1))) / 10 ^ (stripZ ((digs 9 m).drop (k + 1))).length), ?_, ?_, ?_, ?_⟩
        · simp only [frac, hs, if_false]
          exact read_frac (hdt _) (strip_digit (hdd _)) (hne k)
        · rw [Lit.val, strip_val, hval]
        · refine numText_digits (hdt _) (hne k) fun q => ?_
          have := okNum_frac (strip_digit (hdd (k + 1))) (r := []) (fun _ => rfl) q
          rwa [List.append_nil] at this
        · simp only [Lit.isInt, Bool.false_eq_true, false_iff, not_and]
          rintro ⟨z, hz⟩
          exfalso
          apply hs
          rw [strip_nil (hdd _)]
          have hz' : (m : ℚ) = z * 10 ^ (9 - (k + 1)) := by
            have e : (10 : ℚ) ^ ((k : ℤ) - 8) = (10 ^ (9 - (k + 1)))⁻¹ := by
              have : (k : ℤ) - 8 = -((9 - (k + 1) : ℕ) : ℤ) := by omega
              rw [this, zpow_neg, zpow_natCast]
            rw [e] at hz
            field_simp at hz
            linarith
          have hz2 : (m : ℤ) = z * 10 ^ (9 - (k + 1)) := by exact_mod_cast hz'
          have hz3 : 10 ^ (9 - (k + 1)) ∣ m := by
            have : ((10 ^ (9 - (k + 1)) : ℕ) : ℤ) ∣ (m : ℤ) := ⟨z, by rw [hz2]; push_cast; ring⟩
            exact_mod_cast this
          have hz4 : 10 ^ (9 - (k + 1)) ∣ dval ((digs 9 m).drop (k + 1)) := by
            have := (Nat.dvd_add_right (Dvd.intro_left (dval ((digs 9 m).take (k + 1))) rfl)).1 (e1.symm ▸ hz3 : 10 ^ (9 - (k + 1)) ∣ dval ((digs 9 m).take (k + 1)) * 10 ^ (9 - (k + 1)) + dval ((digs 9 m).drop (k + 1)))
            exact this
          exact Nat.eq_zero_of_dvd_of_lt hz4 e2
    next h0 =>
      obtain ⟨k, hk⟩ : ∃ k : ℕ, -X - 1 = k := ⟨(-X - 1).toNat, by omega⟩
      have hX' : X = -(k : ℤ) - 1 := by omega
      subst hX'
      have ek : (-(-(k : ℤ) - 1) - 1).toNat = k := by omega
      rw [ek]
      have hb : ∀ c ∈ List.replicate k '0' ++ stripZ (digs 9 m), c.isDigit = true := by
        intro c hc
        rcases List.mem_append.1 hc with hc | hc
        · rw [(List.mem_replicate.1 hc).2]; rfl
        · exact strip_digit hd c hc
      have hr := read_frac (a := ['0']) (by simp) hb (by simp)
      have hval : (dval (['0'] ++ (List.replicate k '0' ++ stripZ (digs 9 m))) : ℚ) / 10 ^ (List.replicate k '0' ++ stripZ (digs 9 m)).length = m * 10 ^ (-(k : ℤ) - 1 - 8) := by
        have e0 : ['0'] ++ (List.replicate k '0' ++ stripZ (digs 9 m)) = List.replicate (k + 1) '0' ++ stripZ (digs 9 m) := by
          rw [List.replicate_succ]; rfl
        have hz := strip_val (List.replicate (k + 1) '0') (digs 9 m)
        rw [e0, List.length_append, List.length_replicate, pow_add, ← div_div, div_right_comm, hz, dval_append, dval_zeros, dval_digs_lt h2, hlen]
        have : (-(k : ℤ) - 1 - 8) = -((9 : ℕ) : ℤ) + -(k : ℤ) := by push_cast; ring
        rw [this, zpow_add₀ (by norm_num), zpow_neg, zpow_neg, zpow_natCast, zpow_natCast]
        push_cast
        field_simp
        ring
      refine ⟨_, hr, by rw [Lit.val, hval], ?_, ?_⟩
      · exact ⟨'0', _, rfl, rfl, by
          have := okNum_all hb '.'
          simp [okNum, this]⟩
      · simp only [Lit.isInt, Bool.false_eq_true, false_iff, not_and]
        rintro ⟨z, hz⟩
        exfalso
        have a1 : (0 : ℚ) < m * 10 ^ (-(k : ℤ) - 1 - 8) := by positivity
        have a2 : (m : ℚ) * 10 ^ (-(k : ℤ) - 1 - 8) < 1 := by
          have : (10 : ℚ) ^ (-(k : ℤ) - 1 - 8) ≤ 10 ^ (-(9 : ℤ)) := zpow_le_zpow_right₀ (by norm_num) (by omega)
          have hm9 : (m : ℚ) < 10 ^ 9 := by exact_mod_cast h2
          calc (m : ℚ) * 10 ^ (-(k : ℤ) - 1 - 8) ≤ m * 10 ^ (-(9 : ℤ)) := mul_le_mul_of_nonneg_left this hpos.le
            _ < 10 ^ 9 * 10 ^ (-(9 : ℤ)) := mul_lt_mul_of_pos_right hm9 (by positivity)
            _ = 1 := by norm_num
        rw [hz] at a1 a2
        have b1 : (0 : ℤ) < z := by exact_mod_cast a1
        have b2 : z < 1 := by exact_mod_cast a2
        omega
  next hX =>
    have ht1 : ∀ c ∈ (digs 9 m).take 1, c.isDigit = true := hdt 1
    have hval : (dval ((digs 9 m).take 1 ++ (digs 9 m).drop 1) : ℚ) / 10 ^ ((digs 9 m).drop 1).length * 10 ^ X = m * 10 ^ (X - 8) := by
      rw [List.take_append_drop, dval_digs_lt h2, List.length_drop, hlen, zpow_sub₀ (by norm_num)]
      norm_num
      ring
    have hnotint : ¬ ((∃ z : ℤ, (m : ℚ) * 10 ^ (X - 8) = z) ∧ (m : ℚ) * 10 ^ (X - 8) < 10 ^ 9) := by
      rintro ⟨⟨z, hz⟩, hlt⟩
      have hm8 : (10 : ℚ) ^ 8 ≤ m := by exact_mod_cast h1
      rcases lt_or_ge X 9 with h | h
      · have h4 : X < -4 := by omega
        have a1 : (0 : ℚ) < m * 10 ^ (X - 8) := by positivity
        have a2 : (m : ℚ) * 10 ^ (X - 8) < 1 := by
          have : (10 : ℚ) ^ (X - 8) ≤ 10 ^ (-(9 : ℤ)) := zpow_le_zpow_right₀ (by norm_num) (by omega)
          have hm9 : (m : ℚ) < 10 ^ 9 := by exact_mod_cast h2
          calc (m : ℚ) * 10 ^ (X - 8) ≤ m * 10 ^ (-(9 : ℤ)) := mul_le_mul_of_nonneg_left this hpos.le
            _ < 10 ^ 9 * 10 ^ (-(9 : ℤ)) := mul_lt_mul_of_pos_right hm9 (by positivity)
            _ = 1 := by norm_num
        rw [hz] at a1 a2
        have b1 : (0 : ℤ) < z := by exact_mod_cast a1
        have b2 : z < 1 := by exact_mod_cast a2
        omega
      · have : (10 : ℚ) ^ (1 : ℤ) ≤ 10 ^ (X - 8) := zpow_le_zpow_right₀ (by norm_num) (by omega)
        rw [zpow_one] at this
        have : (10 : ℚ) ^ 8 * 10 ≤ m * 10 ^ (X - 8) := mul_le_mul hm8 this (by norm_num) hpos.le
        norm_num at this hlt
        linarith
    by_cases hs : stripZ ((digs 9 m).drop 1) = []
    · refine ⟨.flt (dval ((digs 9 m).take 1) * 10 ^ X), ?_, ?_, ?_, ?_⟩
      · rw [hs]
        simp only [frac, if_true, List.append_nil]
        exact read_exp (hdt _) (hne 0) (read_expText X)
      · have hz := strip_val ((digs 9 m).take 1) ((digs 9 m).drop 1)
        rw [hs] at hz
        rw [Lit.val, ← hval, ← hz]
        simp
      · rw [List.append_assoc]
        exact numText_digits (hdt _) (hne 0) fun q => okNum_frac (strip_digit (hdd _)) (okNum_exp X) q
      · simp only [Lit.isInt, Bool.false_eq_true, false_iff]; exact hnotint
    · refine ⟨.flt (dval ((digs 9 m).take 1 ++ stripZ ((digs 9 m).drop 1)) / 10 ^ (stripZ ((digs 9 m).drop 1)).length * 10 ^ X), ?_, ?_, ?_, ?_⟩
      · simp only [frac, hs, if_false]
        exact read_frac_exp (hdt _) (strip_digit (hdd _)) (hne 0) (read_expText X)
      · rw [Lit.val, strip_val, hval]
      · rw [List.append_assoc]
        exact numText_digits (hdt _) (hne 0) fun q => okNum_frac (strip_digit (hdd _)) (okNum_exp X) q
      · simp only [Lit.isInt, Bool.false_eq_true, false_iff]; exact hnotint

end

/-- The value of the text of `'%.9g' % x`. -/
def round9 (x : ℚ) : ℚ := if x < 0 then -round9Pos (-x) else round9Pos x

theorem round9Pos_nonneg (x : ℚ) : 0 ≤ round9Pos x := by
  unfold round9Pos
  split
  · exact le_refl _
  · positivity

theorem read_gPos {x : ℚ} (hx : 0 ≤ x) : ∃ l, readNum (gPos x) = some l ∧ l.val = round9Pos x ∧ NumText (gPos x) ∧
    (l.isInt = true ↔ (∃ z : ℤ, round9Pos x = z) ∧ round9Pos x < 10 ^ 9) := by
  unfold gPos round9Pos
  split
  · exact ⟨.int 0, by decide, rfl, ⟨'0', [], rfl, rfl, rfl⟩, by simp [Lit.isInt]; exact ⟨0, by simp⟩⟩
  · rename_i h
    have hb := sci_bounds (lt_of_le_of_ne hx (Ne.symm h))
    exact read_gText hb.1 hb.2 _

theorem sig9_neg {q : ℚ} (h : Sig9 q) : Sig9 (-q) := by
  obtain ⟨m, e, hm, rfl⟩ := h
  exact ⟨-m, e, by rwa [abs_neg], by push_cast; ring⟩

theorem round9_nearest (x : ℚ) : Nearest9 x (round9 x) := by
  unfold round9
  split
  · obtain ⟨h1, h2⟩ := round9Pos_nearest (x := -x) (by linarith)
    refine ⟨sig9_neg h1, fun q hq => ?_⟩
    have := h2 (-q) (sig9_neg hq)
    rw [← abs_neg (round9Pos (-x) - -x), ← abs_neg (-q - -x)] at this
    convert this using 2 <;> ring
  · exact round9Pos_nearest (by linarith)

theorem round9_near (x : ℚ) : |round9 x - x| ≤ |x| * (5 / 10 ^ 9) := by
  unfold round9
  split
  · rename_i h
    have := round9Pos_near (x := -x) (by linarith)
    rw [abs_of_neg h, ← abs_neg]
    convert this using 2
    ring
  · rename_i h
    rw [abs_of_nonneg (show 0 ≤ x by linarith)]
    exact round9Pos_near (by linarith)

/-- A number with at most nine significant digits is not changed. -/
theorem round9_exact {x : ℚ} (h : Sig9 x) : round9 x = x := by
  have := (round9_nearest x).2 x h
  rw [sub_self, abs_zero] at this
  have := abs_eq_zero.1 (le_antisymm this (abs_nonneg _))
  linarith

theorem fmtG_idem (x : ℚ) : fmtG (.fin (round9 x)) = fmtG (.fin x) := by
  change signed gPos (round9 x) = signed gPos x
  unfold signed round9
  by_cases h : x < 0
  · simp only [if_pos h]
    have hp := round9Pos_nonneg (-x)
    rcases hp.eq_or_lt with h0 | h0
    · exfalso
      have := round9Pos_near (x := -x) (by linarith)
      rw [← h0, zero_sub, neg_neg, abs_of_neg h] at this
      linarith
    · rw [if_pos (by linarith), neg_neg, round9Pos_idem (by linarith)]
  · simp only [if_neg h]
    have hp := round9Pos_nonneg x
    rw [if_neg (by linarith), round9Pos_idem (by linarith)]

/-! ### Four decimals -/

/-- The value of the text of `'%.4f' % x`. -/
def round4Pos (x : ℚ) : ℚ := rhe (x * 10 ^ 4) / 10 ^ 4
def round4 (x : ℚ) : ℚ := if x < 0 then -round4Pos (-x) else round4Pos x

theorem read_fPos {x : ℚ} (hx : 0 ≤ x) : readNum (fPos x) = some (.flt (round4Pos x)) ∧ NumText (fPos x) := by
  have h0 : 0 ≤ rhe (x * 10 ^ 4) := rhe_mono_int (by push_cast; positivity)
  obtain ⟨n, hn⟩ := Int.eq_ofNat_of_zero_le h0
  unfold fPos round4Pos
  rw [hn]
  have e : ((n : ℤ)).toNat = n := by simp
  rw [e]
  constructor
  · rw [read_frac (dec_digit _) (digs_digit _ _) (dec_ne_nil _), dval_append, digs_length, dec_val, dval_digs]
    congr 2
    have : n / 10 ^ 4 * 10 ^ 4 + n % 10 ^ 4 = n := by omega
    rw [this]
    rfl
  · refine numText_digits (dec_digit _) (dec_ne_nil _) fun q => ?_
    simp [okNum, okNum_all (digs_digit 4 n)]

theorem round4Pos_nearest (x : ℚ) : Nearest4 x (round4Pos x) := by
  refine ⟨⟨_, rfl⟩, fun n => ?_⟩
  have := rhe_best (x * 10 ^ 4) n
  have s : ∀ t : ℚ, |t / 10 ^ 4 - x| = |t - x * 10 ^ 4| / 10 ^ 4 := by
    intro t
    rw [← abs_of_pos (show (0 : ℚ) < 10 ^ 4 by norm_num), ← abs_div, abs_of_pos (show (0 : ℚ) < 10 ^ 4 by norm_num)]
    congr 1
    field_simp
  unfold round4Pos
  rw [s, s]
  exact div_le_div_of_nonneg_right this (by norm_num)

theorem round4_nearest (x : ℚ) : Nearest4 x (round4 x) := by
  unfold round4
  split
  · obtain ⟨⟨n, h1⟩, h2⟩ := round4Pos_nearest (-x)
    refine ⟨⟨-n, by rw [h1]; push_cast; ring⟩, fun k => ?_⟩
    have := h2 (-k)
    rw [← abs_neg (round4Pos (-x) - -x), ← abs_neg (((-k : ℤ) : ℚ) / 10 ^ 4 - -x)] at this
    convert this using 2
    · ring
    · push_cast; ring
  · exact round4Pos_nearest x

theorem round4_near (x : ℚ) : |round4 x - x| ≤ 5 / 10 ^ 5 := by
  have key : ∀ y : ℚ, |round4Pos y - y| ≤ 5 / 10 ^ 5 := by
    intro y
    have h := abs_le.1 (rhe_near (y * 10 ^ 4))
    unfold round4Pos
    rw [abs_le]
    constructor
    · rw [le_sub_iff_add_le, le_div_iff₀ (by norm_num)]; linarith [h.1]
    · rw [sub_le_iff_le_add, div_le_iff₀ (by norm_num)]; linarith [h.2]
  unfold round4
  split
  · have := key (-x)
    rw [← abs_neg]
    convert this using 2
    ring
  · exact key x

/-- A multiple of 0.0001 is not changed. -/
theorem round4_exact {x : ℚ} (h : ∃ n : ℤ, x = n / 10 ^ 4) : round4 x = x := by
  obtain ⟨n, rfl⟩ := h
  have := (round4_nearest (n / 10 ^ 4)).2 n
  rw [sub_self, abs_zero] at this
  have := abs_eq_zero.1 (le_antisymm this (abs_nonneg _))
  linarith

theorem round4_idem (x : ℚ) : round4 (round4 x) = round4 x := round4_exact (round4_nearest x).1

/-! ### Integers -/

theorem read_dec (n : ℕ) : readNum (dec n) = some (.int n) ∧ NumText (dec n) := by
  constructor
  · rw [read_int (dec_digit n) (dec_ne_nil n), dec_val]
    rcases eq_or_ne n 0 with rfl | h
    · right; simp [dec, digs_length]
    · exact Or.inl (dec_head h)
  · have := numText_digits (dec_digit n) (dec_ne_nil n) (r := []) (fun _ => rfl)
    rwa [List.append_nil] at this

end Verif.SaveText
