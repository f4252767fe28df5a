import Verif.SaveText.NumModel
import Mathlib.Tactic.Linarith
import Mathlib.Tactic.Ring
import Mathlib.Tactic.FieldSimp
import Mathlib.Tactic.IntervalCases
import Mathlib.Tactic.Positivity
import Mathlib.Tactic.Push

/-!
# Lemmas: reading back what the conversions write
-/

namespace Verif.SaveText

/-! ### Digits -/

theorem dig_isDigit {d : ℕ} (h : d < 10) : (dig d).isDigit = true := by
  interval_cases d <;> rfl

theorem dig_val {d : ℕ} (h : d < 10) : (dig d).toNat - 48 = d := by
  interval_cases d <;> rfl

theorem dig_ne_zero {d : ℕ} (h : d < 10) (h0 : d ≠ 0) : dig d ≠ '0' := by
  interval_cases d <;> first | exact absurd rfl h0 | decide

theorem digs_length (k n : ℕ) : (digs k n).length = k := by
  induction k generalizing n with
  | zero => rfl
  | succ k ih => simp [digs, ih]

theorem digs_digit (k n : ℕ) : ∀ c ∈ digs k n, c.isDigit = true := by
  induction k generalizing n with
  | zero => simp [digs]
  | succ k ih =>
    intro c hc
    rw [digs, List.mem_append, List.mem_singleton] at hc
    rcases hc with hc | rfl
    · exact ih _ c hc
    · exact dig_isDigit (Nat.mod_lt _ (by norm_num))

theorem foldl_dval (l : List Char) (a : ℕ) : l.foldl (fun a c => 10 * a + (c.toNat - 48)) a = a * 10 ^ l.length + dval l := by
  unfold dval
  induction l generalizing a with
  | nil => simp
  | cons c l ih =>
    simp only [List.foldl_cons, List.length_cons]
    rw [ih, ih (10 * 0 + (c.toNat - 48))]
    ring

theorem dval_append (a b : List Char) : dval (a ++ b) = dval a * 10 ^ b.length + dval b := by
  conv_lhs => rw [dval, List.foldl_append]
  rw [foldl_dval]
  rfl

theorem dval_digs (k n : ℕ) : dval (digs k n) = n % 10 ^ k := by
  induction k generalizing n with
  | zero => simp [digs, dval, Nat.mod_one]
  | succ k ih =>
    rw [digs, dval_append, ih]
    have : dval [dig (n % 10)] = n % 10 := by
      simp only [dval, List.foldl_cons, List.foldl_nil, Nat.mul_zero, Nat.zero_add]
      exact dig_val (Nat.mod_lt _ (by norm_num))
    rw [this, List.length_singleton, pow_one, pow_succ, Nat.mul_comm (10 ^ k) 10, Nat.mod_mul]
    omega

theorem dval_digs_lt {k n : ℕ} (h : n < 10 ^ k) : dval (digs k n) = n := by rw [dval_digs, Nat.mod_eq_of_lt h]

theorem dec_digit (n : ℕ) : ∀ c ∈ dec n, c.isDigit = true := digs_digit _ _

theorem dec_val (n : ℕ) : dval (dec n) = n := dval_digs_lt (Nat.lt_pow_succ_log_self (by norm_num) n)

theorem digs_head (k n : ℕ) : (digs (k + 1) n).head? = some (dig (n / 10 ^ k % 10)) := by
  induction k generalizing n with
  | zero => simp [digs]
  | succ k ih =>
    rw [digs, List.head?_append, ih, Nat.div_div_eq_div_mul, ← pow_succ']
    rfl

theorem dec_head {n : ℕ} (h : n ≠ 0) : (dec n).head? ≠ some '0' := by
  unfold dec
  rw [digs_head]
  have h1 : 10 ^ Nat.log 10 n ≤ n := Nat.pow_log_le_self 10 h
  have h2 : n < 10 ^ (Nat.log 10 n + 1) := Nat.lt_pow_succ_log_self (by norm_num) n
  have h3 : n / 10 ^ Nat.log 10 n < 10 := by
    rw [Nat.div_lt_iff_lt_mul (by positivity), ← pow_succ']
    exact h2
  have h4 : 0 < n / 10 ^ Nat.log 10 n := Nat.div_pos h1 (by positivity)
  rw [Nat.mod_eq_of_lt h3]
  simp only [ne_eq, Option.some.injEq]
  exact dig_ne_zero h3 (by omega)

theorem dec_ne_nil (n : ℕ) : dec n ≠ [] := by
  intro h
  have := congrArg List.length h
  simp [dec, digs_length] at this

/-! ### Trailing zeros -/

theorem strip_append (l : List Char) : ∃ k, l = stripZ l ++ List.replicate k '0' := by
  refine ⟨(l.rtakeWhile (· == '0')).length, ?_⟩
  have h1 : l = stripZ l ++ l.rtakeWhile (· == '0') := (List.rdropWhile_append_rtakeWhile (p := (· == '0')) (l := l)).symm
  have h2 : l.rtakeWhile (· == '0') = List.replicate (l.rtakeWhile (· == '0')).length '0' := by
    rw [List.eq_replicate_iff]
    refine ⟨rfl, fun c hc => ?_⟩
    simpa using List.mem_rtakeWhile_imp hc
  rw [← h2]
  exact h1

theorem dval_zeros (k : ℕ) : dval (List.replicate k '0') = 0 := by
  induction k with
  | zero => rfl
  | succ k ih =>
    rw [List.replicate_succ, ← List.singleton_append, dval_append, ih]
    simp [dval]

theorem strip_val (a b : List Char) :
    (dval (a ++ stripZ b) : ℚ) / 10 ^ (stripZ b).length = (dval (a ++ b) : ℚ) / 10 ^ b.length := by
  obtain ⟨k, hk⟩ := strip_append b
  have hb : b.length = (stripZ b).length + k := by conv_lhs => rw [hk]; simp
  have hv : dval (a ++ b) = dval (a ++ stripZ b) * 10 ^ k := by
    conv_lhs => rw [hk, ← List.append_assoc, dval_append, dval_zeros, List.length_replicate]
    simp
  rw [hv, hb, pow_add]
  push_cast
  field_simp

theorem strip_digit {l : List Char} (h : ∀ c ∈ l, c.isDigit = true) : ∀ c ∈ stripZ l, c.isDigit = true :=
  fun c hc => h c ((List.rdropWhile_prefix _ (l := l)).subset hc)

theorem strip_nil {l : List Char} (h : ∀ c ∈ l, c.isDigit = true) : stripZ l = [] ↔ dval l = 0 := by
  constructor
  · intro hs
    obtain ⟨k, hk⟩ := strip_append l
    rw [hk, hs, List.nil_append, dval_zeros]
  · intro hv
    unfold stripZ
    rw [List.rdropWhile_eq_nil_iff]
    intro c hc
    have : ∀ (l : List Char), (∀ c ∈ l, c.isDigit = true) → dval l = 0 → ∀ c ∈ l, c = '0' := by
      intro l
      induction l with
      | nil => simp
      | cons x l ih =>
        intro hd h0 c hc
        rw [← List.singleton_append, dval_append] at h0
        have h1 : dval [x] * 10 ^ l.length = 0 := by omega
        have h2 : dval l = 0 := by omega
        have h3 : dval [x] = 0 := by
          rcases Nat.mul_eq_zero.1 h1 with h | h
          · exact h
          · exact absurd h (by positivity)
        rcases List.mem_cons.1 hc with rfl | hc
        · have hx := hd c List.mem_cons_self
          simp only [dval, List.foldl_cons, List.foldl_nil, Nat.mul_zero, Nat.zero_add] at h3
          simp only [Char.isDigit, Bool.and_eq_true, decide_eq_true_eq] at hx
          have h48 : 48 ≤ c.toNat := hx.1
          have : c.toNat = 48 := by omega
          exact Char.ext (UInt32.toNat_inj.1 this)
        · exact ih (fun c hc => hd c (List.mem_cons_of_mem _ hc)) h2 c hc
    simpa using this l h hv c hc

/-! ### Splitting a literal -/

/-- `r` does not begin with a digit. -/
def Stops (r : List Char) : Prop := ∀ c s, r = c :: s → c.isDigit = false

theorem take_digits {a r : List Char} (h : ∀ c ∈ a, c.isDigit = true) (hr : Stops r) :
    (a ++ r).takeWhile Char.isDigit = a ∧ (a ++ r).dropWhile Char.isDigit = r := by
  induction a with
  | nil =>
    cases r with
    | nil => simp
    | cons c s => simp [hr c s rfl]
  | cons x a ih =>
    have hx := h x List.mem_cons_self
    obtain ⟨h1, h2⟩ := ih fun c hc => h c (List.mem_cons_of_mem _ hc)
    simp [hx, h1, h2]

theorem read_int {a : List Char} (h : ∀ c ∈ a, c.isDigit = true) (hne : a ≠ []) (h0 : a.head? ≠ some '0' ∨ a.length = 1) : readNum a = some (.int (dval a)) := by
  obtain ⟨h1, h2⟩ := take_digits h (r := []) (fun _ _ h => by cases h)
  rw [List.append_nil] at h1 h2
  unfold readNum
  rw [h1, h2]
  cases a with
  | nil => exact absurd rfl hne
  | cons c s =>
    dsimp only
    rw [if_neg]
    rintro ⟨ha, hb⟩
    rcases h0 with h0 | h0
    · exact h0 ha
    · omega

theorem read_frac {a b : List Char} (ha : ∀ c ∈ a, c.isDigit = true) (hb : ∀ c ∈ b, c.isDigit = true) (hne : a ≠ []) :
    readNum (a ++ '.' :: b) = some (.flt (dval (a ++ b) / 10 ^ b.length)) := by
  obtain ⟨h1, h2⟩ := take_digits ha (r := '.' :: b) (fun c s h => by cases h; rfl)
  obtain ⟨h3, h4⟩ := take_digits hb (r := []) (fun _ _ h => by cases h)
  rw [List.append_nil] at h3 h4
  unfold readNum
  rw [h1, h2]
  cases a with
  | nil => exact absurd rfl hne
  | cons c s =>
    simp [h3, h4]

theorem read_frac_exp {a b s : List Char} {x : ℤ} (ha : ∀ c ∈ a, c.isDigit = true) (hb : ∀ c ∈ b, c.isDigit = true) (hne : a ≠ []) (hs : readExp s = some x) :
    readNum (a ++ '.' :: b ++ 'e' :: s) = some (.flt (dval (a ++ b) / 10 ^ b.length * 10 ^ x)) := by
  obtain ⟨h1, h2⟩ := take_digits ha (r := '.' :: (b ++ 'e' :: s)) (fun c s h => by cases h; rfl)
  obtain ⟨h3, h4⟩ := take_digits hb (r := 'e' :: s) (fun c s h => by cases h; rfl)
  rw [List.append_assoc, List.cons_append]
  unfold readNum
  rw [h1, h2]
  cases a with
  | nil => exact absurd rfl hne
  | cons c t =>
    simp [h3, h4, hs]

theorem read_exp {a s : List Char} {x : ℤ} (ha : ∀ c ∈ a, c.isDigit = true) (hne : a ≠ []) (hs : readExp s = some x) :
    readNum (a ++ 'e' :: s) = some (.flt (dval a * 10 ^ x)) := by
  obtain ⟨h1, h2⟩ := take_digits ha (r := 'e' :: s) (fun c s h => by cases h; rfl)
  unfold readNum
  rw [h1, h2]
  cases a with
  | nil => exact absurd rfl hne
  | cons c t => simp [hs]

theorem read_expText (X : ℤ) : readExp (expText X) = some X := by
  have hd : ∀ c ∈ (if X.natAbs < 100 then digs 2 X.natAbs else dec X.natAbs), c.isDigit = true := by
    split
    · exact digs_digit _ _
    · exact dec_digit _
  have hv : dval (if X.natAbs < 100 then digs 2 X.natAbs else dec X.natAbs) = X.natAbs := by
    split
    · exact dval_digs_lt (by simpa using ‹_›)
    · exact dec_val _
  have hn : (if X.natAbs < 100 then digs 2 X.natAbs else dec X.natAbs) ≠ [] := by
    split
    · intro h; have := congrArg List.length h; simp [digs_length] at this
    · exact dec_ne_nil _
  unfold expText
  generalize (if X.natAbs < 100 then digs 2 X.natAbs else dec X.natAbs) = l at hd hv hn
  have ha : l.all Char.isDigit = true := List.all_eq_true.2 hd
  split
  · simp only [readExp, hn, ha, hv, ne_eq, not_false_eq_true, and_self, if_true, Option.some.injEq]; omega
  · simp only [readExp, hn, ha, hv, ne_eq, not_false_eq_true, and_self, if_true, Option.some.injEq]; omega

end Verif.SaveText
