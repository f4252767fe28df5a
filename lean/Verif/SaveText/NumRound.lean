import Verif.SaveText.NumLemmas
import Mathlib.Algebra.Order.Field.Power

/-!
# What the conversions round to, and reading it back
-/

namespace Verif.SaveText

/-! ### Specification -/

/-- A number with at most nine significant decimal digits. -/
def Sig9 (q : ℚ) : Prop := ∃ m e : ℤ, |m| < 10 ^ 9 ∧ q = m * 10 ^ e

/-- `r` is a number with at most nine significant digits and none is nearer to `x`. -/
def Nearest9 (x r : ℚ) : Prop := Sig9 r ∧ ∀ q, Sig9 q → |r - x| ≤ |q - x|

/-- `r` is a multiple of 0.0001 and none is nearer to `x`. -/
def Nearest4 (x r : ℚ) : Prop := (∃ n : ℤ, r = n / 10 ^ 4) ∧ ∀ n : ℤ, |r - x| ≤ |n / 10 ^ 4 - x|

/-! ### Rounding to the nearest integer -/

theorem rhe_near (y : ℚ) : |(rhe y : ℚ) - y| ≤ 1 / 2 := by
  have h1 := Int.floor_le y
  have h2 := Int.lt_floor_add_one y
  unfold rhe
  split_ifs <;> rw [abs_le] <;> push_cast <;> constructor <;> linarith

theorem rhe_int (n : ℤ) : rhe n = n := by
  unfold rhe
  simp

theorem rhe_best (y : ℚ) (n : ℤ) : |(rhe y : ℚ) - y| ≤ |(n : ℚ) - y| := by
  have h := rhe_near y
  rcases eq_or_ne n (rhe y) with rfl | hn
  · exact le_refl _
  · have h1 : (1 : ℚ) ≤ |(n : ℚ) - rhe y| := by
      have : (1 : ℤ) ≤ |n - rhe y| := Int.one_le_abs (sub_ne_zero.2 hn)
      exact_mod_cast this
    have h2 : |(n : ℚ) - rhe y| ≤ |(n : ℚ) - y| + |(rhe y : ℚ) - y| := by
      have := abs_sub_le (n : ℚ) y (rhe y)
      rwa [abs_sub_comm y] at this
    linarith

theorem rhe_mono_int {y : ℚ} {n : ℤ} (h : (n : ℚ) ≤ y) : n ≤ rhe y := by
  have h1 := Int.le_floor.2 h
  unfold rhe
  split_ifs <;> omega

theorem rhe_le_int {y : ℚ} {n : ℤ} (h : y ≤ n) : rhe y ≤ n := by
  by_contra hc
  have h1 : n + 1 ≤ rhe y := by omega
  have h2 : (n : ℚ) + 1 ≤ rhe y := by exact_mod_cast h1
  have h3 := abs_le.1 (rhe_near y)
  linarith

/-! ### Nine significant digits -/

/-- The rounded value of `x ≥ 0`. -/
def round9Pos (x : ℚ) : ℚ := if x = 0 then 0 else (sci x).1 * 10 ^ ((sci x).2 - 8)

theorem sci_grid {x : ℚ} (hx : 0 < x) : (10 : ℚ) ^ 8 ≤ x / 10 ^ (Int.log 10 x - 8) ∧ x / 10 ^ (Int.log 10 x - 8) < 10 ^ 9 := by
  have h1 : ((10 : ℕ) : ℚ) ^ Int.log 10 x ≤ x := Int.zpow_log_le_self (by norm_num) hx
  have h2 : x < ((10 : ℕ) : ℚ) ^ (Int.log 10 x + 1) := Int.lt_zpow_succ_log_self (by norm_num) x
  push_cast at h1 h2
  have hp : (0 : ℚ) < 10 ^ (Int.log 10 x - 8) := by positivity
  constructor
  · rw [le_div_iff₀ hp]
    have : (10 : ℚ) ^ (8 : ℕ) * 10 ^ (Int.log 10 x - 8) = 10 ^ Int.log 10 x := by
      rw [← zpow_natCast, ← zpow_add₀ (by norm_num)]; congr 1; push_cast; ring
    rw [this]; exact h1
  · rw [div_lt_iff₀ hp]
    have : (10 : ℚ) ^ (9 : ℕ) * 10 ^ (Int.log 10 x - 8) = 10 ^ (Int.log 10 x + 1) := by
      rw [← zpow_natCast, ← zpow_add₀ (by norm_num)]; congr 1; push_cast; ring
    rw [this]; exact h2

theorem sci_bounds {x : ℚ} (hx : 0 < x) : 10 ^ 8 ≤ (sci x).1 ∧ (sci x).1 < 10 ^ 9 := by
  obtain ⟨h1, h2⟩ := sci_grid hx
  have h3 : (10 ^ 8 : ℤ) ≤ rhe (x / 10 ^ (Int.log 10 x - 8)) := rhe_mono_int (by push_cast; exact h1)
  unfold sci
  split
  · dsimp only
    omega
  · norm_num

theorem sci_value {x : ℚ} (hx : 0 < x) : ((sci x).1 : ℚ) * 10 ^ ((sci x).2 - 8) = rhe (x / 10 ^ (Int.log 10 x - 8)) * 10 ^ (Int.log 10 x - 8) := by
  obtain ⟨h1, h2⟩ := sci_grid hx
  have h3 : (10 ^ 8 : ℤ) ≤ rhe (x / 10 ^ (Int.log 10 x - 8)) := rhe_mono_int (by push_cast; exact h1)
  have h4 : rhe (x / 10 ^ (Int.log 10 x - 8)) ≤ 10 ^ 9 := rhe_le_int (by push_cast; exact h2.le)
  unfold sci
  split
  · dsimp only
    have : (((rhe (x / 10 ^ (Int.log 10 x - 8))).toNat : ℤ) : ℚ) = rhe (x / 10 ^ (Int.log 10 x - 8)) := by
      rw [Int.toNat_of_nonneg (by omega)]
    rw [← this]
    rfl
  · have : rhe (x / 10 ^ (Int.log 10 x - 8)) = 10 ^ 9 := by omega
    rw [this]
    have e : Int.log 10 x + 1 - 8 = (Int.log 10 x - 8) + 1 := by ring
    rw [e, zpow_add₀ (by norm_num), zpow_one]
    push_cast
    ring

theorem zpow_split {a b : ℤ} (h : a ≤ b) : (10 : ℚ) ^ b = ((10 ^ (b - a).toNat : ℤ) : ℚ) * 10 ^ a := by
  have : ((b - a).toNat : ℤ) = b - a := Int.toNat_of_nonneg (by omega)
  push_cast
  rw [← zpow_natCast, this, ← zpow_add₀ (by norm_num)]
  congr 1; ring

theorem round9Pos_nearest {x : ℚ} (hx : 0 ≤ x) : Nearest9 x (round9Pos x) := by
  unfold round9Pos
  rcases hx.eq_or_lt with rfl | hx
  · simp only [if_true]
    exact ⟨⟨0, 0, by norm_num, by norm_num⟩, fun q _ => by simp⟩
  rw [if_neg hx.ne']
  have hb := sci_bounds hx
  refine ⟨⟨(sci x).1, (sci x).2 - 8, by rw [abs_of_nonneg (by positivity)]; exact_mod_cast hb.2, by push_cast; rfl⟩, ?_⟩
  rw [sci_value hx]
  rintro q ⟨m, e, hm, rfl⟩
  set G : ℚ := 10 ^ (Int.log 10 x - 8) with hG
  have hp : 0 < G := by positivity
  have hbest : ∀ n : ℤ, |(rhe (x / G) : ℚ) * G - x| ≤ |(n : ℚ) * G - x| := by
    intro n
    have := rhe_best (x / G) n
    have s : ∀ t : ℚ, |t * G - x| = |t - x / G| * G := by
      intro t
      rw [← abs_of_pos hp, ← abs_mul, abs_of_pos hp]
      congr 1
      field_simp
    rw [s, s]
    exact mul_le_mul_of_nonneg_right this hp.le
  by_cases he : Int.log 10 x - 8 ≤ e
  · have := hbest (m * 10 ^ (e - (Int.log 10 x - 8)).toNat)
    rw [zpow_split he]
    push_cast at this ⊢
    rwa [mul_assoc] at this
  · have hL : (10 : ℚ) ^ Int.log 10 x ≤ x := by
      have h1 : ((10 : ℕ) : ℚ) ^ Int.log 10 x ≤ x := Int.zpow_log_le_self (by norm_num) hx
      exact_mod_cast h1
    have h8 : (10 : ℚ) ^ Int.log 10 x = ((10 ^ 8 : ℤ) : ℚ) * G := by
      rw [hG, zpow_split (show Int.log 10 x - 8 ≤ Int.log 10 x by omega)]
      congr 4
      omega
    have h1 := hbest (10 ^ 8)
    rw [← h8] at h1
    have h2 : (m : ℚ) * 10 ^ e ≤ 10 ^ Int.log 10 x := by
      have hm' : (m : ℚ) ≤ 10 ^ 9 := by
        have := (abs_lt.1 hm).2.le
        exact_mod_cast this
      calc (m : ℚ) * 10 ^ e ≤ 10 ^ 9 * 10 ^ e := mul_le_mul_of_nonneg_right hm' (by positivity)
        _ = 10 ^ (e + 9) := by rw [zpow_add₀ (by norm_num)]; norm_num; ring
        _ ≤ 10 ^ Int.log 10 x := zpow_le_zpow_right₀ (by norm_num) (by omega)
    rw [abs_of_nonpos (by linarith : (10 : ℚ) ^ Int.log 10 x - x ≤ 0)] at h1
    rw [abs_of_nonpos (by linarith : (m : ℚ) * 10 ^ e - x ≤ 0)]
    linarith

theorem round9Pos_near {x : ℚ} (hx : 0 ≤ x) : |round9Pos x - x| ≤ x * (5 / 10 ^ 9) := by
  unfold round9Pos
  rcases hx.eq_or_lt with rfl | hx
  · simp
  rw [if_neg hx.ne', sci_value hx]
  set G : ℚ := 10 ^ (Int.log 10 x - 8) with hG
  have hp : 0 < G := by positivity
  have h1 := rhe_near (x / G)
  have h2 := (sci_grid hx).1
  rw [← hG, le_div_iff₀ hp] at h2
  have : |(rhe (x / G) : ℚ) * G - x| = |(rhe (x / G) : ℚ) - x / G| * G := by
    rw [← abs_of_pos hp, ← abs_mul, abs_of_pos hp]
    congr 1
    field_simp
  rw [this]
  calc _ ≤ 1 / 2 * G := mul_le_mul_of_nonneg_right h1 hp.le
    _ ≤ x * (5 / 10 ^ 9) := by linarith

theorem sci_of {m : ℕ} {X : ℤ} (h1 : 10 ^ 8 ≤ m) (h2 : m < 10 ^ 9) : sci ((m : ℚ) * 10 ^ (X - 8)) = (m, X) := by
  have hm : (0 : ℚ) < m := by exact_mod_cast (by omega : 0 < m)
  have hp : (0 : ℚ) < 10 ^ (X - 8) := by positivity
  have hlog : Int.log 10 ((m : ℚ) * 10 ^ (X - 8)) = X := by
    have hpos : (0 : ℚ) < m * 10 ^ (X - 8) := by positivity
    have a1 : ((10 : ℕ) : ℚ) ^ X ≤ m * 10 ^ (X - 8) := by
      push_cast
      rw [zpow_split (show X - 8 ≤ X by omega)]
      refine mul_le_mul_of_nonneg_right ?_ hp.le
      have : (X - (X - 8)).toNat = 8 := by omega
      rw [this]
      exact_mod_cast h1
    have a2 : (m : ℚ) * 10 ^ (X - 8) < ((10 : ℕ) : ℚ) ^ (X + 1) := by
      push_cast
      rw [zpow_split (show X - 8 ≤ X + 1 by omega)]
      refine mul_lt_mul_of_pos_right ?_ hp
      have : (X + 1 - (X - 8)).toNat = 9 := by omega
      rw [this]
      exact_mod_cast h2
    have b1 := (Int.zpow_le_iff_le_log (by norm_num) hpos).1 a1
    have b2 := (Int.lt_zpow_iff_log_lt (by norm_num) hpos).1 a2
    omega
  unfold sci
  rw [hlog]
  have : (m : ℚ) * 10 ^ (X - 8) / 10 ^ (X - 8) = ((m : ℤ) : ℚ) := by
    rw [mul_div_cancel_right₀ _ hp.ne']; rfl
  rw [this, rhe_int, if_pos (by exact_mod_cast h2)]
  simp

theorem round9Pos_idem {x : ℚ} (hx : 0 ≤ x) : gPos (round9Pos x) = gPos x := by
  rcases hx.eq_or_lt with rfl | hx
  · simp [round9Pos]
  have hb := sci_bounds hx
  have hm : (0 : ℚ) < (sci x).1 := by exact_mod_cast (by omega : 0 < (sci x).1)
  unfold gPos round9Pos
  rw [if_neg hx.ne', if_neg (by positivity), sci_of hb.1 hb.2, if_neg hx.ne']

end Verif.SaveText
