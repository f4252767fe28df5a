import Verif.Pips.Split
import Verif.NumPyLemmas
import Mathlib.Data.List.Nodup
import Mathlib.Tactic.Linarith
import Mathlib.Tactic.NormNum
import Mathlib.Tactic.IntervalCases

/-!
# Splitting of bounds and linear constraints, and re-packaging of their multipliers

Property C36 of `properties.jsonl`.
-/

namespace Verif.Pips

open Verif.NumPy

/-! ### Specification -/

/-- The two bounds are finite and at most `EPS = 2⁻⁵²` apart. -/
def Equal (l u : EReal) : Prop := ∃ a b : ℝ, l = a ∧ u = b ∧ |b - a| ≤ 1 / 2 ^ 52

/-- What the solver is asked for row `k`: equality if the bounds coincide, otherwise each bound inside `(-1e10, 1e10)` is respected
(bounds beyond are treated as infinite). -/
def RowOK (l u : EReal) (v : ℝ) : Prop :=
  (Equal l u → (v : EReal) = u) ∧
  (¬ Equal l u → ((((-10 ^ 10 : ℝ) : EReal) < l → l ≤ v) ∧ (u < ((10 ^ 10 : ℝ) : EReal) → (v : EReal) ≤ u)))

theorem near_iff (l u : EReal) : near l u ↔ Equal l u := by
  unfold near Equal epsE
  induction l using EReal.rec with
  | bot =>
    induction u using EReal.rec with
    | bot => simp [← EReal.coe_neg]
    | coe u =>
      constructor
      · rintro ⟨_, h⟩
        simp at h
      · rintro ⟨a, b, h, _⟩; exact absurd h (EReal.bot_ne_coe _)
    | top =>
      constructor
      · rintro ⟨_, h⟩
        simp at h
      · rintro ⟨a, b, h, _⟩; exact absurd h (EReal.bot_ne_coe _)
  | coe l =>
    induction u using EReal.rec with
    | bot =>
      constructor
      · rintro ⟨h, _⟩
        rw [← EReal.coe_neg] at h
        simp at h
      · rintro ⟨a, b, _, h, _⟩; exact absurd h (EReal.bot_ne_coe _)
    | coe u =>
      rw [← EReal.coe_sub, ← EReal.coe_neg, EReal.coe_le_coe_iff, EReal.coe_le_coe_iff]
      constructor
      · rintro ⟨h1, h2⟩; exact ⟨l, u, rfl, rfl, abs_le.2 ⟨h1, h2⟩⟩
      · rintro ⟨a, b, h1, h2, h3⟩
        rw [EReal.coe_eq_coe_iff] at h1 h2
        subst h1; subst h2
        exact abs_le.1 h3
    | top =>
      constructor
      · rintro ⟨_, h⟩
        simp at h
      · rintro ⟨a, b, _, h, _⟩; exact absurd h.symm (EReal.coe_ne_top _)
  | top =>
    constructor
    · rintro ⟨h, _⟩
      exfalso
      rw [← EReal.coe_neg] at h
      simp at h
    · rintro ⟨a, b, h, _⟩; exact absurd h.symm (EReal.coe_ne_top _)

theorem neg_big : -big = (((-10 ^ 10 : ℝ)) : EReal) := by
  rw [big, ← EReal.coe_neg]

theorem mem_hLin (n : ℕ) (ll uu : ℕ → EReal) (v : ℕ → ℝ) (t : EReal) :
    t ∈ hLin n ll uu v ↔
      (∃ k ∈ ilt n ll uu, t = (v k : EReal) - uu k) ∨ (∃ k ∈ igt n ll uu, t = ((-v k : ℝ) : EReal) - -ll k) ∨
      (∃ k ∈ ibx n ll uu, t = (v k : EReal) - uu k) ∨ (∃ k ∈ ibx n ll uu, t = ((-v k : ℝ) : EReal) - -ll k) := by
  have h : hLin n ll uu v =
      (ilt n ll uu).map (fun k => (v k : EReal) - uu k) ++ (igt n ll uu).map (fun k => ((-v k : ℝ) : EReal) - -ll k) ++
      (ibx n ll uu).map (fun k => (v k : EReal) - uu k) ++ (ibx n ll uu).map (fun k => ((-v k : ℝ) : EReal) - -ll k) := by
    unfold hLin iRows bi
    rw [List.zipWith_append (by simp), List.zipWith_append (by simp), List.zipWith_append (by simp)]
    simp [List.zipWith_map, List.zipWith_self]
  rw [h]
  simp only [List.mem_append, List.mem_map]
  constructor
  · rintro (((⟨k, h1, rfl⟩ | ⟨k, h1, rfl⟩) | ⟨k, h1, rfl⟩) | ⟨k, h1, rfl⟩)
    · exact Or.inl ⟨k, h1, rfl⟩
    · exact Or.inr (Or.inl ⟨k, h1, rfl⟩)
    · exact Or.inr (Or.inr (Or.inl ⟨k, h1, rfl⟩))
    · exact Or.inr (Or.inr (Or.inr ⟨k, h1, rfl⟩))
  · rintro (⟨k, h1, rfl⟩ | ⟨k, h1, rfl⟩ | ⟨k, h1, rfl⟩ | ⟨k, h1, rfl⟩)
    · exact Or.inl (Or.inl (Or.inl ⟨k, h1, rfl⟩))
    · exact Or.inl (Or.inl (Or.inr ⟨k, h1, rfl⟩))
    · exact Or.inl (Or.inr ⟨k, h1, rfl⟩)
    · exact Or.inr ⟨k, h1, rfl⟩

theorem sub_le_zero (v : ℝ) (u : EReal) : (v : EReal) - u ≤ 0 ↔ (v : EReal) ≤ u := by
  induction u using EReal.rec with
  | bot => simp
  | coe u => rw [← EReal.coe_sub, ← EReal.coe_zero, EReal.coe_le_coe_iff, EReal.coe_le_coe_iff]; constructor <;> intro h <;> linarith
  | top => simp

theorem sub_eq_zero' (v : ℝ) (u : EReal) : (v : EReal) - u = 0 ↔ (v : EReal) = u := by
  induction u using EReal.rec with
  | bot => simp
  | coe u => rw [← EReal.coe_sub, ← EReal.coe_zero, EReal.coe_eq_coe_iff, EReal.coe_eq_coe_iff]; constructor <;> intro h <;> linarith
  | top => simp

theorem neg_sub_le_zero (v : ℝ) (l : EReal) : ((-v : ℝ) : EReal) - -l ≤ 0 ↔ l ≤ (v : EReal) := by
  rw [sub_le_zero, EReal.coe_neg, EReal.neg_le_neg_iff]

theorem mem_ieq {n : ℕ} {ll uu : ℕ → EReal} {k : ℕ} : k ∈ ieq n ll uu ↔ k < n ∧ near (ll k) (uu k) := by simp [ieq]
theorem mem_igt {n : ℕ} {ll uu : ℕ → EReal} {k : ℕ} : k ∈ igt n ll uu ↔ k < n ∧ big ≤ uu k ∧ -big < ll k := by simp [igt]
theorem mem_ilt {n : ℕ} {ll uu : ℕ → EReal} {k : ℕ} : k ∈ ilt n ll uu ↔ k < n ∧ ll k ≤ -big ∧ uu k < big := by simp [ilt]
theorem mem_ibx {n : ℕ} {ll uu : ℕ → EReal} {k : ℕ} :
    k ∈ ibx n ll uu ↔ k < n ∧ ¬ near (ll k) (uu k) ∧ uu k < big ∧ -big < ll k := by simp [ibx]

/-- **C36 (splitting).**  For every set of bounds with `l ≤ u` (infinite ones included) a point satisfies the split system
`Ae x = be, Ai x ≤ bi` exactly if every row is respected in the sense of `RowOK`. -/
theorem C36_split (n : ℕ) (ll uu : ℕ → EReal) (v : ℕ → ℝ) (hlu : ∀ k < n, ll k ≤ uu k) :
    ((∀ t ∈ gLin n ll uu v, t = 0) ∧ (∀ t ∈ hLin n ll uu v, t ≤ 0)) ↔ ∀ k < n, RowOK (ll k) (uu k) (v k) := by
  have hg : (∀ t ∈ gLin n ll uu v, t = 0) ↔ ∀ k ∈ ieq n ll uu, (v k : EReal) = uu k := by
    simp [gLin, sub_eq_zero']
  have hh : (∀ t ∈ hLin n ll uu v, t ≤ 0) ↔
      (∀ k ∈ ilt n ll uu, (v k : EReal) ≤ uu k) ∧ (∀ k ∈ igt n ll uu, ll k ≤ v k) ∧
      (∀ k ∈ ibx n ll uu, (v k : EReal) ≤ uu k) ∧ (∀ k ∈ ibx n ll uu, ll k ≤ v k) := by
    constructor
    · intro h
      exact ⟨fun k hk => (sub_le_zero _ _).1 (h _ ((mem_hLin ..).2 (Or.inl ⟨k, hk, rfl⟩))),
        fun k hk => (neg_sub_le_zero _ _).1 (h _ ((mem_hLin ..).2 (Or.inr (Or.inl ⟨k, hk, rfl⟩)))),
        fun k hk => (sub_le_zero _ _).1 (h _ ((mem_hLin ..).2 (Or.inr (Or.inr (Or.inl ⟨k, hk, rfl⟩))))),
        fun k hk => (neg_sub_le_zero _ _).1 (h _ ((mem_hLin ..).2 (Or.inr (Or.inr (Or.inr ⟨k, hk, rfl⟩)))))⟩
    · rintro ⟨h1, h2, h3, h4⟩ t ht
      rcases (mem_hLin ..).1 ht with ⟨k, hk, rfl⟩ | ⟨k, hk, rfl⟩ | ⟨k, hk, rfl⟩ | ⟨k, hk, rfl⟩
      · exact (sub_le_zero _ _).2 (h1 k hk)
      · exact (neg_sub_le_zero _ _).2 (h2 k hk)
      · exact (sub_le_zero _ _).2 (h3 k hk)
      · exact (neg_sub_le_zero _ _).2 (h4 k hk)
  rw [hg, hh]
  constructor
  · rintro ⟨h0, h1, h2, h3, h4⟩ k hk
    refine ⟨fun he => h0 k (mem_ieq.2 ⟨hk, (near_iff _ _).2 he⟩), fun hne => ⟨fun hl => ?_, fun hu => ?_⟩⟩
    · rw [← neg_big] at hl
      rcases lt_or_ge (uu k) big with hu | hu
      · exact h4 k (mem_ibx.2 ⟨hk, fun h => hne ((near_iff _ _).1 h), hu, hl⟩)
      · exact h2 k (mem_igt.2 ⟨hk, hu, hl⟩)
    · change uu k < big at hu
      rcases lt_or_ge (-big) (ll k) with hl | hl
      · exact h3 k (mem_ibx.2 ⟨hk, fun h => hne ((near_iff _ _).1 h), hu, hl⟩)
      · exact h1 k (mem_ilt.2 ⟨hk, hl, hu⟩)
  · intro h
    refine ⟨fun k hk => ?_, fun k hk => ?_, fun k hk => ?_, fun k hk => ?_, fun k hk => ?_⟩
    · obtain ⟨hk, hn⟩ := mem_ieq.1 hk
      exact (h k hk).1 ((near_iff _ _).1 hn)
    · obtain ⟨hk, _, hu⟩ := mem_ilt.1 hk
      by_cases he : Equal (ll k) (uu k)
      · exact le_of_eq ((h k hk).1 he)
      · exact ((h k hk).2 he).2 hu
    · obtain ⟨hk, _, hl⟩ := mem_igt.1 hk
      by_cases he : Equal (ll k) (uu k)
      · rw [(h k hk).1 he]; exact hlu k hk
      · rw [neg_big] at hl; exact ((h k hk).2 he).1 hl
    · obtain ⟨hk, hn, hu, _⟩ := mem_ibx.1 hk
      exact ((h k hk).2 (fun he => hn ((near_iff _ _).2 he))).2 hu
    · obtain ⟨hk, hn, _, hl⟩ := mem_ibx.1 hk
      rw [neg_big] at hl
      exact ((h k hk).2 (fun he => hn ((near_iff _ _).2 he))).1 hl

/-- **C36 (exactness).**  If no two bounds of a row differ by a positive amount `≤ EPS`, and every bound is either infinite or smaller than `1e10`
in magnitude (a lower bound is not `+∞`, an upper bound not `-∞`), the split system describes exactly the points with `l ≤ Ax ≤ u`. -/
theorem C36_exact (n : ℕ) (ll uu : ℕ → EReal) (v : ℕ → ℝ) (hlu : ∀ k < n, ll k ≤ uu k)
    (heq : ∀ k < n, Equal (ll k) (uu k) → ll k = uu k)
    (hl : ∀ k < n, ll k = ⊥ ∨ ((-10 ^ 10 : ℝ) : EReal) < ll k) (hu : ∀ k < n, uu k = ⊤ ∨ uu k < ((10 ^ 10 : ℝ) : EReal)) :
    ((∀ t ∈ gLin n ll uu v, t = 0) ∧ (∀ t ∈ hLin n ll uu v, t ≤ 0)) ↔ ∀ k < n, ll k ≤ v k ∧ (v k : EReal) ≤ uu k := by
  rw [C36_split n ll uu v hlu]
  refine forall_congr' fun k => imp_congr_right fun hk => ?_
  by_cases he : Equal (ll k) (uu k)
  · have h1 := heq k hk he
    constructor
    · intro h; rw [h1]; exact ⟨le_of_eq (h.1 he).symm, le_of_eq (h.1 he)⟩
    · rintro ⟨h2, h3⟩
      refine ⟨fun _ => le_antisymm h3 (h1 ▸ h2), fun hn => absurd he hn⟩
  · constructor
    · intro h
      refine ⟨?_, ?_⟩
      · rcases hl k hk with h1 | h1
        · rw [h1]; exact bot_le
        · exact (h.2 he).1 h1
      · rcases hu k hk with h1 | h1
        · rw [h1]; exact le_top
        · exact (h.2 he).2 h1
    · rintro ⟨h1, h2⟩
      exact ⟨fun h => absurd h he, fun _ => ⟨fun _ => h1, fun _ => h2⟩⟩

/-! ### Multipliers -/

theorem nodup_filter_range (n : ℕ) (p : ℕ → Bool) : ((List.range n).filter p).Nodup :=
  List.nodup_range.filter p

theorem ieq_nodup (n : ℕ) (ll uu : ℕ → EReal) : (ieq n ll uu).Nodup := nodup_filter_range n _
theorem ilt_nodup (n : ℕ) (ll uu : ℕ → EReal) : (ilt n ll uu).Nodup := nodup_filter_range n _
theorem igt_nodup (n : ℕ) (ll uu : ℕ → EReal) : (igt n ll uu).Nodup := nodup_filter_range n _
theorem ibx_nodup (n : ℕ) (ll uu : ℕ → EReal) : (ibx n ll uu).Nodup := nodup_filter_range n _

/-- Selecting the positions of `ys` where `p` holds from a parallel list. -/
theorem gather_par {α β : Type} (xs : List α) (ys : List β) (p : β → Bool) (h : ys.length = xs.length) :
    gather xs (find (ys.map p)) = some (((xs.zip ys).filter fun z => p z.2).map Prod.fst) ∧
    gather ys (find (ys.map p)) = some (((xs.zip ys).filter fun z => p z.2).map Prod.snd) := by
  have h1 : ys = (xs.zip ys).map Prod.snd := by
    rw [List.map_snd_zip]; omega
  have h2 : xs = (xs.zip ys).map Prod.fst := by
    rw [List.map_fst_zip]; omega
  have h3 : ys.map p = (xs.zip ys).map (fun z => p z.2) := by
    conv_lhs => rw [h1]
    simp [List.map_map, Function.comp_def]
  constructor
  · conv_lhs => rw [h3]; arg 1; rw [h2]
    rw [gather_map, gather_find]; rfl
  · conv_lhs => rw [h3]; arg 1; rw [h1]
    rw [gather_map, gather_find]; rfl

theorem iRows_true {n : ℕ} {ll uu : ℕ → EReal} {p k : ℕ} (h : (iRows n ll uu)[p]? = some (true, k)) :
    (p < (ilt n ll uu).length ∧ (ilt n ll uu)[p]? = some k) ∨
    ∃ q, p = (ilt n ll uu).length + (igt n ll uu).length + q ∧ q < (ibx n ll uu).length ∧ (ibx n ll uu)[q]? = some k := by
  unfold iRows at h
  rw [List.getElem?_append, List.getElem?_append, List.getElem?_append] at h
  simp only [List.length_append, List.length_map] at h
  split_ifs at h with h1 h2 h3
  · left
    exact ⟨h3, by simpa using h⟩
  · simp at h
  · right
    refine ⟨p - ((ilt n ll uu).length + (igt n ll uu).length), by omega, by omega, by simpa using h⟩
  · simp at h

theorem iRows_false {n : ℕ} {ll uu : ℕ → EReal} {p k : ℕ} (h : (iRows n ll uu)[p]? = some (false, k)) :
    (∃ q, p = (ilt n ll uu).length + q ∧ q < (igt n ll uu).length ∧ (igt n ll uu)[q]? = some k) ∨
    ∃ q, p = (ilt n ll uu).length + (igt n ll uu).length + (ibx n ll uu).length + q ∧ q < (ibx n ll uu).length ∧
      (ibx n ll uu)[q]? = some k := by
  unfold iRows at h
  rw [List.getElem?_append, List.getElem?_append, List.getElem?_append] at h
  simp only [List.length_append, List.length_map] at h
  split_ifs at h with h1 h2 h3
  · simp at h
  · left
    exact ⟨p - (ilt n ll uu).length, by omega, by omega, by simpa using h⟩
  · simp at h
  · right
    have h' := h
    rw [List.getElem?_map] at h'
    have h4 : p - ((ilt n ll uu).length + (igt n ll uu).length + (ibx n ll uu).length) < (ibx n ll uu).length := by
      by_contra hc
      rw [List.getElem?_eq_none (by omega)] at h'
      simp at h'
    exact ⟨_, by omega, h4, by simpa using h⟩

theorem iRows_length (n : ℕ) (ll uu : ℕ → EReal) :
    (iRows n ll uu).length = (ilt n ll uu).length + (igt n ll uu).length + (ibx n ll uu).length + (ibx n ll uu).length := by
  simp [iRows]; omega

/-- Three successive fancy assignments into zeros through pairwise disjoint index lists: each position holds the value of the one
list it occurs in, or zero.  (The first list comes from the equality rows.) -/
theorem scatter3 (n : ℕ) (zs : List (ℕ × ℝ)) (i2 i3 : List ℕ) (v2 v3 : List ℝ)
    (hz : (zs.map Prod.fst).Nodup) (h2 : i2.Nodup) (h3 : i3.Nodup)
    (r1 : ∀ i ∈ zs.map Prod.fst, i < n) (r2 : ∀ i ∈ i2, i < n) (r3 : ∀ i ∈ i3, i < n)
    (l2 : v2.length = i2.length) (l3 : v3.length = i3.length)
    (d12 : ∀ i ∈ zs.map Prod.fst, i ∉ i2) (d13 : ∀ i ∈ zs.map Prod.fst, i ∉ i3) (d23 : ∀ i ∈ i2, i ∉ i3) :
    ∃ a b c, scatter (List.replicate n (0 : ℝ)) (zs.map Prod.fst) (zs.map Prod.snd) = some a ∧
      scatter a i2 v2 = some b ∧ scatter b i3 v3 = some c ∧ c.length = n ∧
      (∀ k t, (k, t) ∈ zs → c[k]? = some t) ∧
      (∀ q k : ℕ, i2[q]? = some k → c[k]? = v2[q]?) ∧
      (∀ q k : ℕ, i3[q]? = some k → c[k]? = v3[q]?) ∧
      (∀ k, k < n → k ∉ zs.map Prod.fst → k ∉ i2 → k ∉ i3 → c[k]? = some 0) := by
  obtain ⟨a, ha, la, ga, na⟩ := scatter_spec (List.replicate n (0 : ℝ)) (zs.map Prod.fst) (zs.map Prod.snd) hz
    (by simpa using r1) (by simp)
  obtain ⟨b, hb, lb, gb, nb⟩ := scatter_spec a i2 v2 h2 (by simpa [la] using r2) l2
  obtain ⟨c, hc, lc, gc, nc⟩ := scatter_spec b i3 v3 h3 (by simpa [lb, la] using r3) l3
  refine ⟨a, b, c, ha, hb, hc, by simp [lc, lb, la], ?_, ?_, gc, ?_⟩
  · intro k t hkt
    have hk : k ∈ zs.map Prod.fst := List.mem_map.2 ⟨_, hkt, rfl⟩
    rw [nc k (d13 k hk), nb k (d12 k hk)]
    obtain ⟨p, hp⟩ := List.mem_iff_getElem?.1 hkt
    rw [ga p k (by simp [hp])]
    simp [hp]
  · intro q k hq
    have hk : k ∈ i2 := List.mem_iff_getElem?.2 ⟨q, hq⟩
    rw [nc k (d23 k hk)]
    exact gb q k hq
  · intro k hkn hk1 hk2 hk3
    rw [nc k hk3, nb k hk2, na k hk1]
    simp [hkn]

/-- **C36 (multipliers).**  Let `lamLin`, `muLin` be the multipliers of the rows of `Ae` and `Ai`, and let equality rows have bounds
inside `(-1e10, 1e10)`.  Then the re-packaging succeeds, the multiplier of each row of `Ai` is found at the original constraint that row came from,
on the upper (`mu_u`) or lower (`mu_l`) side as the case may be; an equality multiplier is split into its positive (upper) and
negative (lower) part; every other entry is zero; and with non-negative `muLin` all entries are non-negative. -/
theorem C36_multipliers (n : ℕ) (ll uu : ℕ → EReal) (lamLin muLin : List ℝ)
    (hlam : lamLin.length = (ieq n ll uu).length) (hmu : muLin.length = (iRows n ll uu).length)
    (hin : ∀ k < n, Equal (ll k) (uu k) → ((-10 ^ 10 : ℝ) : EReal) < ll k ∧ uu k < ((10 ^ 10 : ℝ) : EReal)) :
    ∃ L U, muL n ll uu lamLin muLin = some L ∧ muU n ll uu lamLin muLin = some U ∧ L.length = n ∧ U.length = n ∧
      (∀ p k : ℕ, (iRows n ll uu)[p]? = some (true, k) → U[k]? = muLin[p]?) ∧
      (∀ p k : ℕ, (iRows n ll uu)[p]? = some (false, k) → L[k]? = muLin[p]?) ∧
      (∀ (p k : ℕ) (t : ℝ), (ieq n ll uu)[p]? = some k → lamLin[p]? = some t →
        U[k]? = some (max t 0) ∧ L[k]? = some (max (-t) 0)) ∧
      (∀ k < n, (true, k) ∉ iRows n ll uu → k ∉ ieq n ll uu → U[k]? = some 0) ∧
      (∀ k < n, (false, k) ∉ iRows n ll uu → k ∉ ieq n ll uu → L[k]? = some 0) ∧
      ((∀ t ∈ muLin, 0 ≤ t) → (∀ t ∈ L, 0 ≤ t) ∧ (∀ t ∈ U, 0 ≤ t)) := by
  have dEL : ∀ k ∈ ieq n ll uu, k ∉ ilt n ll uu := by
    intro k h1 h2
    obtain ⟨hk, hn⟩ := mem_ieq.1 h1
    have := (hin k hk ((near_iff _ _).1 hn)).1
    rw [← neg_big] at this
    exact absurd (mem_ilt.1 h2).2.1 (not_le.2 this)
  have dEG : ∀ k ∈ ieq n ll uu, k ∉ igt n ll uu := by
    intro k h1 h2
    obtain ⟨hk, hn⟩ := mem_ieq.1 h1
    exact absurd (mem_igt.1 h2).2.1 (not_le.2 (hin k hk ((near_iff _ _).1 hn)).2)
  have dEB : ∀ k ∈ ieq n ll uu, k ∉ ibx n ll uu := fun k h1 h2 => (mem_ibx.1 h2).2.1 (mem_ieq.1 h1).2
  have dLB : ∀ k ∈ ilt n ll uu, k ∉ ibx n ll uu := fun k h1 h2 =>
    absurd (mem_ilt.1 h1).2.1 (not_le.2 (mem_ibx.1 h2).2.2.2)
  have dGB : ∀ k ∈ igt n ll uu, k ∉ ibx n ll uu := fun k h1 h2 =>
    absurd (mem_igt.1 h1).2.1 (not_le.2 (mem_ibx.1 h2).2.2.1)
  have hmu' : muLin.length = (ilt n ll uu).length + (igt n ll uu).length + (ibx n ll uu).length + (ibx n ll uu).length := by
    rw [hmu, iRows_length]
  have hfst : ((ieq n ll uu).zip lamLin).map Prod.fst = ieq n ll uu := by rw [List.map_fst_zip]; omega
  have sub : ∀ q : ℕ × ℝ → Bool, ((((ieq n ll uu).zip lamLin).filter q).map Prod.fst).Sublist (ieq n ll uu) := by
    intro q
    have := (List.filter_sublist (p := q) (l := (ieq n ll uu).zip lamLin)).map Prod.fst
    rwa [hfst] at this
  -- lower side
  obtain ⟨gl1, gl2⟩ := gather_par (ieq n ll uu) lamLin (fun t => decide (t < 0)) hlam
  obtain ⟨gu1, gu2⟩ := gather_par (ieq n ll uu) lamLin (fun t => decide (t > 0)) hlam
  set zl := ((ieq n ll uu).zip lamLin).filter (fun z => decide (z.2 < 0)) with hzl
  set zu := ((ieq n ll uu).zip lamLin).filter (fun z => decide (z.2 > 0)) with hzu
  have key : ∀ z : List (ℕ × ℝ), (z.map fun z => (z.1, -z.2)).map Prod.fst = z.map Prod.fst := by
    intro z; simp [List.map_map, Function.comp_def]
  have key2 : ∀ z : List (ℕ × ℝ), (z.map fun z => (z.1, -z.2)).map Prod.snd = (z.map Prod.snd).map fun t => -t := by
    intro z; simp [List.map_map, Function.comp_def]
  have subl : ∀ i ∈ zl.map Prod.fst, i ∈ ieq n ll uu := fun i hi => (sub _).subset hi
  have subu : ∀ i ∈ zu.map Prod.fst, i ∈ ieq n ll uu := fun i hi => (sub _).subset hi
  obtain ⟨a, b, L, ha, hb, hc, lenL, eL, gL, bL, oL⟩ := scatter3 n (zl.map fun z => (z.1, -z.2)) (igt n ll uu) (ibx n ll uu)
    ((muLin.drop (ilt n ll uu).length).take (igt n ll uu).length)
    ((muLin.drop ((ilt n ll uu).length + (igt n ll uu).length + (ibx n ll uu).length)).take (ibx n ll uu).length)
    (by rw [key]; exact (ieq_nodup n ll uu).sublist (sub _)) (igt_nodup _ _ _) (ibx_nodup _ _ _)
    (by rw [key]; intro i hi; exact (mem_ieq.1 (subl i hi)).1) (fun i hi => (mem_igt.1 hi).1) (fun i hi => (mem_ibx.1 hi).1)
    (by simp; omega) (by simp; omega)
    (by rw [key]; exact fun i hi => dEG i (subl i hi)) (by rw [key]; exact fun i hi => dEB i (subl i hi)) dGB
  obtain ⟨a', b', U, ha', hb', hc', lenU, eU, lU, bU, oU⟩ := scatter3 n zu (ilt n ll uu) (ibx n ll uu)
    (muLin.take (ilt n ll uu).length)
    ((muLin.drop ((ilt n ll uu).length + (igt n ll uu).length)).take (ibx n ll uu).length)
    ((ieq_nodup n ll uu).sublist (sub _)) (ilt_nodup _ _ _) (ibx_nodup _ _ _)
    (fun i hi => (mem_ieq.1 (subu i hi)).1) (fun i hi => (mem_ilt.1 hi).1) (fun i hi => (mem_ibx.1 hi).1)
    (by simp; omega) (by simp; omega)
    (fun i hi => dEL i (subu i hi)) (fun i hi => dEB i (subu i hi)) dLB
  have eqL : muL n ll uu lamLin muLin = some L := by
    rw [key, key2] at ha
    simp only [muL, gl1, gl2, Option.bind_eq_bind, Option.bind_some, ha, hb, hc]
  have eqU : muU n ll uu lamLin muLin = some U := by
    simp [muU, gu1, gu2, ha', hb', hc']
  have upT : ∀ p k : ℕ, (iRows n ll uu)[p]? = some (true, k) → U[k]? = muLin[p]? := by
    intro p k h
    rcases iRows_true h with ⟨h1, h2⟩ | ⟨q, rfl, h1, h2⟩
    · rw [lU p k h2, List.getElem?_take_of_lt h1]
    · rw [bU q k h2, List.getElem?_take_of_lt h1, List.getElem?_drop]
  have loT : ∀ p k : ℕ, (iRows n ll uu)[p]? = some (false, k) → L[k]? = muLin[p]? := by
    intro p k h
    rcases iRows_false h with ⟨q, rfl, h1, h2⟩ | ⟨q, rfl, h1, h2⟩
    · rw [gL q k h2, List.getElem?_take_of_lt h1, List.getElem?_drop]
    · rw [bL q k h2, List.getElem?_take_of_lt h1, List.getElem?_drop]
  have eqT : ∀ (p k : ℕ) (t : ℝ), (ieq n ll uu)[p]? = some k → lamLin[p]? = some t →
        U[k]? = some (max t 0) ∧ L[k]? = some (max (-t) 0) := by
    intro p k t hp ht
    have hmem : (k, t) ∈ (ieq n ll uu).zip lamLin :=
      List.mem_iff_getElem?.2 ⟨p, by rw [List.getElem?_zip_eq_some]; exact ⟨hp, ht⟩⟩
    have hke : k ∈ ieq n ll uu := List.mem_iff_getElem?.2 ⟨p, hp⟩
    have hkn := (mem_ieq.1 hke).1
    -- the value paired with k is unique
    have huniq : ∀ t', (k, t') ∈ (ieq n ll uu).zip lamLin → t' = t := by
      intro t' h'
      obtain ⟨p', hp'⟩ := List.mem_iff_getElem?.1 h'
      rw [List.getElem?_zip_eq_some] at hp'
      have hpp : p' = p := by
        have h3 := (ieq_nodup n ll uu)
        obtain ⟨h4, h4'⟩ := List.getElem?_eq_some_iff.1 hp'.1
        obtain ⟨h5, h5'⟩ := List.getElem?_eq_some_iff.1 hp
        exact (List.Nodup.getElem_inj_iff h3).1 (h4'.trans h5'.symm)
      rw [hpp] at hp'
      have := hp'.2
      rw [ht] at this
      exact (Option.some.inj this).symm
    constructor
    · by_cases hpos : 0 < t
      · rw [max_eq_left hpos.le]
        exact eU k t (List.mem_filter.2 ⟨hmem, by simpa using hpos⟩)
      · rw [max_eq_right (not_lt.1 hpos)]
        refine oU k hkn ?_ (dEL k hke) (dEB k hke)
        intro hc
        obtain ⟨⟨k', t'⟩, h1, h2⟩ := List.mem_map.1 hc
        obtain ⟨h3, h4⟩ := List.mem_filter.1 h1
        simp only at h2
        subst h2
        have := huniq t' h3
        subst this
        exact hpos (by simpa using h4)
    · by_cases hneg : t < 0
      · rw [max_eq_left (by linarith)]
        exact eL k (-t) (List.mem_map.2 ⟨(k, t), List.mem_filter.2 ⟨hmem, by simpa using hneg⟩, rfl⟩)
      · rw [max_eq_right (by linarith)]
        refine oL k hkn ?_ (dEG k hke) (dEB k hke)
        rw [key]
        intro hc
        obtain ⟨⟨k', t'⟩, h1, h2⟩ := List.mem_map.1 hc
        obtain ⟨h3, h4⟩ := List.mem_filter.1 h1
        simp only at h2
        subst h2
        have := huniq t' h3
        subst this
        exact hneg (by simpa using h4)
  have zU : ∀ k < n, (true, k) ∉ iRows n ll uu → k ∉ ieq n ll uu → U[k]? = some 0 := by
    intro k hk h1 h2
    refine oU k hk (fun h => h2 (subu k h)) (fun h => h1 ?_) (fun h => h1 ?_) <;> simp [iRows, h]
  have zL : ∀ k < n, (false, k) ∉ iRows n ll uu → k ∉ ieq n ll uu → L[k]? = some 0 := by
    intro k hk h1 h2
    refine oL k hk (fun h => h2 (subl k (by rwa [key] at h))) (fun h => h1 ?_) (fun h => h1 ?_) <;> simp [iRows, h]
  refine ⟨L, U, eqL, eqU, lenL, lenU, upT, loT, eqT, zU, zL, ?_⟩
  intro hnn
  constructor
  · intro t ht
    obtain ⟨k, hk⟩ := List.mem_iff_getElem?.1 ht
    have hkn : k < n := by
      obtain ⟨h, _⟩ := List.getElem?_eq_some_iff.1 hk; omega
    by_cases he : k ∈ ieq n ll uu
    · obtain ⟨p, hp⟩ := List.mem_iff_getElem?.1 he
      obtain ⟨hpl, _⟩ := List.getElem?_eq_some_iff.1 hp
      have := (eqT p k (lamLin[p]'(by omega)) hp (List.getElem?_eq_getElem (by omega))).2
      rw [hk] at this
      rw [Option.some.inj this]; exact le_max_right _ _
    · by_cases hr : (false, k) ∈ iRows n ll uu
      · obtain ⟨p, hp⟩ := List.mem_iff_getElem?.1 hr
        have := loT p k hp
        rw [hk] at this
        exact hnn t (List.mem_iff_getElem?.2 ⟨p, this.symm⟩)
      · have := zL k hkn hr he
        rw [hk] at this
        rw [Option.some.inj this]
  · intro t ht
    obtain ⟨k, hk⟩ := List.mem_iff_getElem?.1 ht
    have hkn : k < n := by
      obtain ⟨h, _⟩ := List.getElem?_eq_some_iff.1 hk; omega
    by_cases he : k ∈ ieq n ll uu
    · obtain ⟨p, hp⟩ := List.mem_iff_getElem?.1 he
      obtain ⟨hpl, _⟩ := List.getElem?_eq_some_iff.1 hp
      have := (eqT p k (lamLin[p]'(by omega)) hp (List.getElem?_eq_getElem (by omega))).1
      rw [hk] at this
      rw [Option.some.inj this]; exact le_max_right _ _
    · by_cases hr : (true, k) ∈ iRows n ll uu
      · obtain ⟨p, hp⟩ := List.mem_iff_getElem?.1 hr
        have := upT p k hp
        rw [hk] at this
        exact hnn t (List.mem_iff_getElem?.2 ⟨p, this.symm⟩)
      · have := zU k hkn hr he
        rw [hk] at this
        rw [Option.some.inj this]

/-- Every row of `AA` with a bound inside `(-1e10, 1e10)` on some side is represented: an upper bound by an equality row or an upper
inequality row, a lower bound likewise. -/
theorem C36_covered (n : ℕ) (ll uu : ℕ → EReal) (k : ℕ) (hk : k < n) :
    (uu k < ((10 ^ 10 : ℝ) : EReal) → k ∈ ieq n ll uu ∨ (true, k) ∈ iRows n ll uu) ∧
    (((-10 ^ 10 : ℝ) : EReal) < ll k → k ∈ ieq n ll uu ∨ (false, k) ∈ iRows n ll uu) := by
  have hT : ∀ b : Bool, ∀ l1 : List ℕ, (b, k) ∈ l1.map (Prod.mk b) ↔ k ∈ l1 := by simp
  by_cases he : near (ll k) (uu k)
  · exact ⟨fun _ => Or.inl (mem_ieq.2 ⟨hk, he⟩), fun _ => Or.inl (mem_ieq.2 ⟨hk, he⟩)⟩
  · constructor
    · intro hu
      change uu k < big at hu
      right
      rcases lt_or_ge (-big) (ll k) with hl | hl
      · have := mem_ibx.2 ⟨hk, he, hu, hl⟩
        simp [iRows, this]
      · have := mem_ilt.2 ⟨hk, hl, hu⟩
        simp [iRows, this]
    · intro hl
      rw [← neg_big] at hl
      right
      rcases lt_or_ge (uu k) big with hu | hu
      · have := mem_ibx.2 ⟨hk, he, hu, hl⟩
        simp [iRows, this]
      · have := mem_igt.2 ⟨hk, hu, hl⟩
        simp [iRows, this]

/-! ### Non-vacuity -/

/-- Bounds of four rows: equality `2 = x`, `x ≤ 3`, `-1 ≤ x`, `0 ≤ x ≤ 5`. -/
noncomputable def exLl : ℕ → EReal := fun k => if k = 0 then ((2 : ℝ) : EReal) else if k = 1 then ⊥ else if k = 2 then ((-1 : ℝ) : EReal) else ((0 : ℝ) : EReal)
noncomputable def exUu : ℕ → EReal := fun k => if k = 0 then ((2 : ℝ) : EReal) else if k = 1 then ((3 : ℝ) : EReal) else if k = 2 then ⊤ else ((5 : ℝ) : EReal)

example : ∀ k < 4, exLl k ≤ exUu k := by
  intro k hk
  interval_cases k <;> simp [exLl, exUu]

example : ∀ k < 4, Equal (exLl k) (exUu k) → ((-10 ^ 10 : ℝ) : EReal) < exLl k ∧ exUu k < ((10 ^ 10 : ℝ) : EReal) := by
  intro k hk
  interval_cases k
  · intro _
    simp only [exLl, exUu, if_true]
    constructor <;> (rw [EReal.coe_lt_coe_iff]; norm_num)
  · rintro ⟨a, b, h, _⟩
    simp [exLl] at h
  · rintro ⟨a, b, _, h, _⟩
    simp [exUu] at h
  · intro _
    simp only [exLl, exUu]
    constructor <;> norm_num

end Verif.Pips
