import Verif.Opf.DcCostProps
import Verif.Pips.SensProps

/-!
# Lemmas for C128: the DC formulation with other demand and limits
-/

open Matrix

namespace Verif.Opf

open Verif.OpfModel Verif.Pips Verif.Network Verif.Cost Verif.OpfCost

variable {nb ng nl : ℕ}

/-- The case with other demand, output limits and ratings. -/
def Case.withLimits (d : Case nb ng nl) (pd : Fin nb → ℝ) (pmin pmax : Fin ng → ℝ) (rate : Fin nl → ℝ) : Case nb ng nl :=
  { d with bus := fun b => { d.bus b with PD := pd b }, pmin := pmin, pmax := pmax, rateA := rate }

/-- The vector `v` placed at positions `a, …, a + b - 1`, zero elsewhere. -/
noncomputable def win (a b : ℕ) (v : Fin b → ℝ) (k : ℕ) : ℝ := if h : a ≤ k ∧ k - a < b then v ⟨k - a, h.2⟩ else 0

theorem win_at (a b : ℕ) (v : Fin b → ℝ) (i : ℕ) (hi : i < b) : win a b v (a + i) = v ⟨i, hi⟩ := by
  unfold win
  rw [dif_pos ⟨by omega, by omega⟩]
  congr 1
  exact Fin.ext (by simp)

theorem win_out (a b : ℕ) (v : Fin b → ℝ) (k : ℕ) (h : k < a ∨ a + b ≤ k) : win a b v k = 0 := by
  unfold win
  rw [dif_neg (by omega)]

theorem win_abs (a b : ℕ) (v : Fin b → ℝ) (k : ℕ) : |win a b v k| = win a b (fun i => |v i|) k := by
  unfold win
  split_ifs <;> simp

theorem sum_win (a b : ℕ) (v : Fin b → ℝ) (N : ℕ) (hN : a + b ≤ N) (F : ℕ → ℝ) :
    ∑ k ∈ Finset.range N, F k * win a b v k = ∑ i : Fin b, F (a + i) * v i := by
  obtain ⟨c, rfl⟩ := Nat.exists_eq_add_of_le hN
  rw [Finset.sum_range_add, Finset.sum_range_add, Finset.sum_eq_zero (s := Finset.range a), Finset.sum_eq_zero (s := Finset.range c), add_zero, zero_add, Finset.sum_range]
  · exact Finset.sum_congr rfl fun i _ => by rw [win_at _ _ _ _ i.isLt]
  · intro k _
    rw [win_out _ _ _ _ (by omega), mul_zero]
  · intro k hk
    rw [win_out _ _ _ _ (Or.inl (Finset.mem_range.1 hk)), mul_zero]

theorem sum_atIl (il : List (Fin nl)) (hnd : il.Nodup) (v : ℕ → ℝ) (w : Fin nl → ℝ) :
    ∑ l, atIl il v l * w l = ∑ k : Fin il.length, v k * w (il.get k) := by
  have e : ∀ l, atIl il v l * w l = if l ∈ il then v (il.idxOf l) * w l else 0 := by
    intro l
    unfold atIl
    split_ifs <;> simp
  rw [Finset.sum_congr rfl fun l _ => e l, ← Finset.sum_filter]
  have : (Finset.univ.filter fun l => l ∈ il) = Finset.univ.image il.get := by
    ext l
    simp only [Finset.mem_filter, Finset.mem_univ, true_and, Finset.mem_image]
    exact List.mem_iff_get
  rw [this, Finset.sum_image fun a _ b _ h => (List.nodup_iff_injective_get.1 hnd) h]
  refine Finset.sum_congr rfl fun k _ => ?_
  have : il.idxOf (il.get k) = k := hnd.idxOf_getElem k k.isLt
  rw [this]

theorem sum_il_le (il : List (Fin nl)) (hnd : il.Nodup) (w : Fin nl → ℝ) (hw : ∀ l, 0 ≤ w l) : ∑ k : Fin il.length, w (il.get k) ≤ ∑ l, w l := by
  have e := Finset.sum_image (s := Finset.univ) (g := il.get) (f := w) fun a _ b _ h => (List.nodup_iff_injective_get.1 hnd) h
  rw [← e]
  exact Finset.sum_le_univ_sum_of_nonneg hw

/-- Blocks after the first ones start after them. -/
theorem start_ge {b : String × ℕ} {bs : List (String × ℕ)} (hnd : (names (b :: bs)).Nodup) {v : String} (hv : v ∈ names bs) : start (b :: bs) v = b.2 + start bs v := by
  refine start_cons_ne _ _ _ fun h => ?_
  rw [names, List.map_cons, List.nodup_cons] at hnd
  exact hnd.1 (by rw [h]; exact hv)

/-- On success: the objective at a dispatch of the system with other demand and limits. -/
theorem dc_sens {d : Case nb ng nl} {extra : List Op} {m : Model} (hm : OpfModel.run (dcOps d ++ extra) = some m) (g : Good (dcOps d ++ extra))
    {H : Matrix (Fin m.var.total) (Fin m.var.total) ℝ} {C : Fin m.var.total → ℝ} {C0 : ℝ} {o : Opt} {solve : AnySolver} {x0 : Fin m.var.total → ℝ}
    {s : DcRes nb ng nl} (hs : dcopfSolver d m H C C0 o solve x0 = some s) (hc : 0 < o.costMult) (hft : 0 ≤ o.feastol)
    (hsym : ∀ x y : Fin m.var.total → ℝ, x ⬝ᵥ (H *ᵥ y) = y ⬝ᵥ (H *ᵥ x)) (hpsd : ∀ x : Fin m.var.total → ℝ, 0 ≤ x ⬝ᵥ (H *ᵥ x)) (hok : s.success = true)
    (hb : 0 < d.base) (hstat : ∀ l, (d.branch l).stat = 0 ∨ (d.branch l).stat = 1) (pd : Fin nb → ℝ) (pmin pmax : Fin ng → ℝ) (rate : Fin nl → ℝ)
    (hlim : ∀ l ∈ d.il, rate l ≠ 0 ∧ rate l < 10 ^ 10) (va : Fin nb → ℝ) (pg : Fin ng → ℝ) (ha : Alternative (d.withLimits pd pmin pmax rate) va pg)
    (y : ℕ → ℝ) (h1 : ∀ b : Fin nb, y b = va b) (h2 : ∀ p : Fin ng, y (nb + p) = pg p / d.base) (ho : Holds (varBlocks (dcOps d ++ extra)) extra y) :
    s.f + ∑ b, s.LAM_P b * (pd b - (d.bus b).PD) + ∑ p, (s.MU_PMIN p * (pmin p - d.pmin p) - s.MU_PMAX p * (pmax p - d.pmax p)) -
        ∑ l, (s.MU_SF l + s.MU_ST l) * (rate l - d.rateA l) ≤
      (1 / 2 * ((fun i : Fin m.var.total => y i) ⬝ᵥ (H *ᵥ fun i : Fin m.var.total => y i)) + C ⬝ᵥ (fun i : Fin m.var.total => y i) + C0) +
      gap o (m.var.total + m.lin.total) ‖fun i : Fin m.var.total => s.x i‖ s.dual s.tol (∑ i : Fin m.var.total, |y i - s.x i|) +
      1 / 10 ^ 5 / (o.costMult * d.base) * (∑ p, (|pmin p - d.pmin p| + |pmax p - d.pmax p|) + 2 * ∑ l, |rate l - d.rateA l|) := by
  classical
  obtain ⟨q, r, hq, hr, e1, e2, e3, e4, e5, -, -, -, -, -, f1, f2, f3, f4, f5, -, -⟩ := dc_ofSolver hm g hs
  obtain ⟨q', hq', ht, hA, hv, hl, hqok⟩ := linearOf_spec hm g
  rw [hq] at hq'; cases hq'
  have hx : (fun i : Fin m.var.total => s.x i) = r.x := by rw [e3]; funext i; simp [pad]
  have hx' : ∀ i : Fin m.var.total, s.x i = r.x i := fun i => congrFun hx i
  have hva : (fun j : Fin nb => y j) = va := funext h1
  obtain ⟨l1, l2, -⟩ := C24_lossless d.branch hstat va
  obtain ⟨s1, s2, -, -, s3, s4, s5⟩ := dc_starts d extra
  have hvn := g.varNames
  have hln : (names (linBlocks (dcOps d ++ extra))).Nodup := by rw [linBlocks_names]; exact g.linNames
  have hn1 : nb + ng ≤ m.var.total := by rw [ht, dc_varBlocks, total_cons, total_cons]; omega
  have hA1 : nb + d.il.length + d.il.length ≤ q.nA := by rw [hA, dc_linBlocks, total_cons, total_cons, total_cons]; omega
  -- what the changes are worth, by position
  let vu : ℕ → ℝ := win nb ng fun p => (pmax p - d.pmax p) / d.base
  let vl : ℕ → ℝ := win nb ng fun p => -(pmin p - d.pmin p) / d.base
  let dr : Fin d.il.length → ℝ := fun k => (rate (d.il.get k) - d.rateA (d.il.get k)) / d.base
  let ru : ℕ → ℝ := fun k => win 0 nb (fun b => -(pd b - (d.bus b).PD) / d.base) k + win nb d.il.length dr k + win (nb + d.il.length) d.il.length dr k
  let rl : ℕ → ℝ := win 0 nb fun b => (pd b - (d.bus b).PD) / d.base
  let ou : ℕ → ℝ := fun k => if k < m.var.total then vu k else ru (k - m.var.total)
  let ol : ℕ → ℝ := fun k => if k < m.var.total then vl k else rl (k - m.var.total)
  have vars : ∀ k < m.var.total, (∀ u : ℝ, q.xmax k = u → y k ≤ u + vu k) ∧ ∀ l : ℝ, q.xmin k = l → l - vl k ≤ y k := by
    intro k hk
    obtain ⟨b, hbm, i, hi, rfl⟩ := cover _ hvn k (by rw [← ht]; exact hk)
    rw [← varVals_blocks] at hbm
    obtain ⟨b', hb', rfl⟩ := List.mem_map.1 hbm
    obtain ⟨q1, q2⟩ := hv b' hb' i hi
    simp only
    rw [q1, q2]
    rw [dc_varVals, List.mem_cons, List.mem_cons] at hb'
    rcases hb' with rfl | rfl | hb'
    · have hi : i < nb := hi
      simp only
      rw [varLo_val _ _ _ _ hi, varHi_vau _ _ _ _ hi, s1, zero_add]
      have e := h1 ⟨i, hi⟩
      simp only at e
      have w1 : vu i = 0 := win_out _ _ _ _ (Or.inl hi)
      have w2 : vl i = 0 := win_out _ _ _ _ (Or.inl hi)
      simp only [w1, w2, add_zero, sub_zero]
      rw [e]
      split_ifs with hr
      · have := ha.ref ⟨i, hi⟩ hr
        change va ⟨i, hi⟩ = d.vaRad ⟨i, hi⟩ at this
        exact ⟨fun u hu => by rw [this, EReal.coe_injective hu], fun u hu => by rw [this, EReal.coe_injective hu]⟩
      · exact ⟨fun u hu => absurd hu (EReal.top_ne_coe u), fun u hu => absurd hu (EReal.bot_ne_coe u)⟩
    · have hi : i < ng := hi
      simp only
      rw [varLo_vec _ _ _ _ hi, varHi_vec _ _ _ _ hi, s2]
      have e := h2 ⟨i, hi⟩
      simp only at e
      have w1 : vu (nb + i) = (pmax ⟨i, hi⟩ - d.pmax ⟨i, hi⟩) / d.base := win_at _ _ _ _ hi
      have w2 : vl (nb + i) = -(pmin ⟨i, hi⟩ - d.pmin ⟨i, hi⟩) / d.base := win_at _ _ _ _ hi
      have a1 : pmin ⟨i, hi⟩ ≤ pg ⟨i, hi⟩ := (ha.gen ⟨i, hi⟩).1
      have a2 : pg ⟨i, hi⟩ ≤ pmax ⟨i, hi⟩ := (ha.gen ⟨i, hi⟩).2
      rw [w1, w2, e]
      refine ⟨fun u hu => ?_, fun u hu => ?_⟩
      · rw [← EReal.coe_injective hu, ← add_div]
        exact div_le_div_of_nonneg_right (by linarith) hb.le
      · rw [← EReal.coe_injective hu, ← sub_div]
        exact div_le_div_of_nonneg_right (by linarith) hb.le
    · have hge : nb + ng ≤ start (varBlocks (dcOps d ++ extra)) b'.1 := by
        have hin : b'.1 ∈ names (varBlocks extra) := by
          rw [← varVals_names]
          exact List.mem_map.2 ⟨b', hb', rfl⟩
        rw [dc_varBlocks] at hvn ⊢
        rw [start_ge hvn (by rw [names, List.map_cons]; exact List.mem_cons_of_mem _ hin)]
        rw [names, List.map_cons, List.nodup_cons] at hvn
        rw [start_ge hvn.2 hin]
        omega
      have w1 : vu (start (varBlocks (dcOps d ++ extra)) b'.1 + i) = 0 := win_out _ _ _ _ (Or.inr (by omega))
      have w2 : vl (start (varBlocks (dcOps d ++ extra)) b'.1 + i) = 0 := win_out _ _ _ _ (Or.inr (by omega))
      obtain ⟨a1, a2⟩ := ho.vars b' hb' i hi
      rw [w1, w2]
      refine ⟨fun u hu => ?_, fun u hu => ?_⟩
      · rw [hu, EReal.coe_le_coe_iff] at a2
        linarith
      · rw [hu, EReal.coe_le_coe_iff] at a1
        linarith
  have hrw : ∀ k < q.nA, (∀ u : ℝ, q.u k = u → ∑ j : Fin m.var.total, q.A k j * y j ≤ u + ru k) ∧ (∀ l : ℝ, q.l k = l → l - rl k ≤ ∑ j : Fin m.var.total, q.A k j * y j) ∧
      (k < nb → Equal (q.l k) (q.u k)) := by
    intro k hk
    rw [hA] at hk
    obtain ⟨b, hbm, i, hi, rfl⟩ := cover _ hln k hk
    obtain ⟨b', hb', rfl⟩ := List.mem_map.1 hbm
    obtain ⟨q0, q1, q2⟩ := hl b' hb' i hi
    have es : ∑ j : Fin m.var.total, q.A (start (linBlocks (dcOps d ++ extra)) b'.1 + i) j * y j =
        ∑ j ∈ Finset.range (total (varBlocks (dcOps d ++ extra))), q.A (start (linBlocks (dcOps d ++ extra)) b'.1 + i) j * y j := by
      rw [← ht, Finset.sum_range]
    simp only
    rw [q1, q2, es, q0]
    rw [dc_linBlks, List.mem_cons, List.mem_cons, List.mem_cons] at hb'
    rcases hb' with rfl | rfl | rfl | hb'
    · have hi : i < nb := hi
      simp only
      rw [linLo_vec _ _ _ _ _ hi, linHi_vec _ _ _ _ _ hi, Pmis_row d extra y ⟨i, hi⟩, hva, s3]
      have hbal := ha.balance ⟨i, hi⟩
      have b2 := l2 ⟨i, hi⟩
      unfold mismatchP at hbal
      change ∑ p with (d.gen p).bus = ⟨i, hi⟩, pg p - pd ⟨i, hi⟩ - (d.bus ⟨i, hi⟩).GS - ∑ l with (d.branch l).f = ⟨i, hi⟩, d.base * dcFlow (d.branch l) va -
        ∑ l with (d.branch l).t = ⟨i, hi⟩, -(d.base * dcFlow (d.branch l) va) = 0 at hbal
      rw [← Finset.mul_sum, Finset.sum_neg_distrib, ← Finset.mul_sum] at hbal
      have e : (Bbus d.branch *ᵥ va) ⟨i, hi⟩ - ∑ g with (d.gen g).bus = ⟨i, hi⟩, y (nb + g) = d.bmis ⟨i, hi⟩ - (pd ⟨i, hi⟩ - (d.bus ⟨i, hi⟩).PD) / d.base := by
        have e3 : ∑ g with (d.gen g).bus = ⟨i, hi⟩, y (nb + g) = (∑ g with (d.gen g).bus = ⟨i, hi⟩, pg g) / d.base := by
          rw [div_eq_mul_inv, Finset.sum_mul]
          exact Finset.sum_congr rfl fun g _ => by rw [h2]; ring
        rw [e3]
        unfold Case.bmis
        field_simp
        linear_combination d.base * b2 - hbal
      have w1 : ru (0 + i) = -(pd ⟨i, hi⟩ - (d.bus ⟨i, hi⟩).PD) / d.base := by
        show win 0 nb _ (0 + i) + win nb d.il.length dr (0 + i) + win (nb + d.il.length) d.il.length dr (0 + i) = _
        rw [win_at _ _ _ _ hi, win_out nb _ _ _ (by omega), win_out (nb + _) _ _ _ (by omega), add_zero, add_zero]
      have w2 : rl (0 + i) = (pd ⟨i, hi⟩ - (d.bus ⟨i, hi⟩).PD) / d.base := win_at _ _ _ _ hi
      rw [w1, w2, e]
      refine ⟨fun u hu => ?_, fun u hu => ?_, fun _ => ⟨_, _, rfl, rfl, by simp⟩⟩
      · rw [EReal.coe_injective hu, neg_div]
        exact le_of_eq (by ring)
      · rw [EReal.coe_injective hu]
    · have hi : i < d.il.length := hi
      simp only
      rw [linLo_bot, linHi_vec _ _ _ _ _ hi, Pf_row d extra y ⟨i, hi⟩, hva, s4]
      have w1 : ru (nb + i) = dr ⟨i, hi⟩ := by
        show win 0 nb _ (nb + i) + win nb d.il.length dr (nb + i) + win (nb + d.il.length) d.il.length dr (nb + i) = _
        rw [win_at nb _ _ _ hi, win_out 0 _ _ _ (by omega), win_out (nb + _) _ _ _ (by omega), add_zero, zero_add]
      rw [w1]
      refine ⟨fun u hu => ?_, fun u hu => absurd hu (EReal.bot_ne_coe u), fun h => by omega⟩
      rw [← EReal.coe_injective hu]
      obtain ⟨r1, r2⟩ := hlim _ (List.get_mem d.il ⟨i, hi⟩)
      have a1 := (abs_le.1 (ha.flow (d.il.get ⟨i, hi⟩) r1 r2)).2
      change d.base * dcFlow (d.branch (d.il.get ⟨i, hi⟩)) va ≤ rate (d.il.get ⟨i, hi⟩) at a1
      have e := l1 (d.il.get ⟨i, hi⟩)
      show _ ≤ d.upf ⟨i, hi⟩ + (rate (d.il.get ⟨i, hi⟩) - d.rateA (d.il.get ⟨i, hi⟩)) / d.base
      unfold Case.upf
      have : d.rateA (d.il.get ⟨i, hi⟩) / d.base - Pfinj d.branch (d.il.get ⟨i, hi⟩) + (rate (d.il.get ⟨i, hi⟩) - d.rateA (d.il.get ⟨i, hi⟩)) / d.base =
          rate (d.il.get ⟨i, hi⟩) / d.base - Pfinj d.branch (d.il.get ⟨i, hi⟩) := by ring
      rw [this, le_sub_iff_add_le, le_div_iff₀ hb, e]
      linarith
    · have hi : i < d.il.length := hi
      simp only
      rw [linLo_bot, linHi_vec _ _ _ _ _ hi, Pt_row d extra y ⟨i, hi⟩, hva, s5]
      have w1 : ru (nb + d.il.length + i) = dr ⟨i, hi⟩ := by
        show win 0 nb _ (nb + d.il.length + i) + win nb d.il.length dr (nb + d.il.length + i) + win (nb + d.il.length) d.il.length dr (nb + d.il.length + i) = _
        rw [win_at (nb + _) _ _ _ hi, win_out 0 _ _ _ (by omega), win_out nb _ _ _ (by omega), zero_add, zero_add]
      rw [w1]
      refine ⟨fun u hu => ?_, fun u hu => absurd hu (EReal.bot_ne_coe u), fun h => by omega⟩
      rw [← EReal.coe_injective hu]
      obtain ⟨r1, r2⟩ := hlim _ (List.get_mem d.il ⟨i, hi⟩)
      have a1 := (abs_le.1 (ha.flow (d.il.get ⟨i, hi⟩) r1 r2)).1
      change -rate (d.il.get ⟨i, hi⟩) ≤ d.base * dcFlow (d.branch (d.il.get ⟨i, hi⟩)) va at a1
      have e := l1 (d.il.get ⟨i, hi⟩)
      show _ ≤ d.upt ⟨i, hi⟩ + (rate (d.il.get ⟨i, hi⟩) - d.rateA (d.il.get ⟨i, hi⟩)) / d.base
      unfold Case.upt
      have : d.rateA (d.il.get ⟨i, hi⟩) / d.base + Pfinj d.branch (d.il.get ⟨i, hi⟩) + (rate (d.il.get ⟨i, hi⟩) - d.rateA (d.il.get ⟨i, hi⟩)) / d.base =
          rate (d.il.get ⟨i, hi⟩) / d.base + Pfinj d.branch (d.il.get ⟨i, hi⟩) := by ring
      rw [this, ← sub_le_iff_le_add, le_div_iff₀ hb]
      have : -(Bf d.branch *ᵥ va) (d.il.get ⟨i, hi⟩) - Pfinj d.branch (d.il.get ⟨i, hi⟩) = -dcFlow (d.branch (d.il.get ⟨i, hi⟩)) va := by
        rw [← e]; ring
      rw [this]
      linarith
    · have hge : nb + d.il.length + d.il.length ≤ start (linBlocks (dcOps d ++ extra)) b'.1 := by
        have hin : b'.1 ∈ names (linBlocks extra) := by
          rw [linBlocks_names]
          exact List.mem_map.2 ⟨b', hb', rfl⟩
        rw [dc_linBlocks] at hln ⊢
        rw [start_ge hln (by rw [names, List.map_cons, List.map_cons]; exact List.mem_cons_of_mem _ (List.mem_cons_of_mem _ hin))]
        rw [names, List.map_cons, List.nodup_cons] at hln
        rw [start_ge hln.2 (by rw [names, List.map_cons]; exact List.mem_cons_of_mem _ hin)]
        have hln := hln.2
        rw [List.map_cons, List.nodup_cons] at hln
        rw [start_ge hln.2 hin]
        omega
      have w1 : ru (start (linBlocks (dcOps d ++ extra)) b'.1 + i) = 0 := by
        show win 0 nb _ _ + win nb d.il.length dr _ + win (nb + d.il.length) d.il.length dr _ = _
        rw [win_out 0 _ _ _ (by omega), win_out nb _ _ _ (by omega), win_out (nb + _) _ _ _ (by omega)]
        simp
      have w2 : rl (start (linBlocks (dcOps d ++ extra)) b'.1 + i) = 0 := win_out _ _ _ _ (Or.inr (by omega))
      obtain ⟨a1, a2⟩ := ho.rows b' hb' i hi
      rw [w1, w2]
      refine ⟨fun u hu => ?_, fun u hu => ?_, fun h => by omega⟩
      · rw [hu, EReal.coe_le_coe_iff] at a2
        linarith
      · rw [hu, EReal.coe_le_coe_iff] at a1
        linarith
  have main := C128_solver (qp H C) (qp_convexCons H C) q hqok o (solve _ _) x0 hc hft r hr (by rw [← e1]; exact hok) (qp_tangent H C hsym hpsd _)
    (fun i => y i) (fun e => e.elim0) (fun i => i.elim0) ou ol (fun k hk u hu => by
      unfold Linear.uu at hu
      by_cases hkn : k < m.var.total
      · rw [if_pos hkn] at hu
        have := val_var q (fun i : Fin m.var.total => y i) ⟨k, hkn⟩
        simp only at this
        rw [this]
        show y k ≤ u + if k < m.var.total then vu k else ru (k - m.var.total)
        rw [if_pos hkn]
        exact (vars k hkn).1 u hu
      · rw [if_neg hkn] at hu
        obtain ⟨j, rfl⟩ := Nat.exists_eq_add_of_le (not_lt.1 hkn)
        rw [val_row]
        rw [Nat.add_sub_cancel_left] at hu
        show _ ≤ u + if m.var.total + j < m.var.total then vu (m.var.total + j) else ru (m.var.total + j - m.var.total)
        rw [if_neg hkn, Nat.add_sub_cancel_left]
        exact (hrw j (by omega)).1 u hu) (fun k hk u hu => by
      unfold Linear.ll at hu
      by_cases hkn : k < m.var.total
      · rw [if_pos hkn] at hu
        have := val_var q (fun i : Fin m.var.total => y i) ⟨k, hkn⟩
        simp only at this
        rw [this]
        show u - (if k < m.var.total then vl k else rl (k - m.var.total)) ≤ y k
        rw [if_pos hkn]
        exact (vars k hkn).2 u hu
      · rw [if_neg hkn] at hu
        obtain ⟨j, rfl⟩ := Nat.exists_eq_add_of_le (not_lt.1 hkn)
        rw [val_row]
        rw [Nat.add_sub_cancel_left] at hu
        show u - (if m.var.total + j < m.var.total then vl (m.var.total + j) else rl (m.var.total + j - m.var.total)) ≤ _
        rw [if_neg hkn, Nat.add_sub_cancel_left]
        exact (hrw j (by omega)).2.1 u hu)
  have hnA : q.nA = m.lin.total := by
    rw [hA, (Rep.run hm).lin, (foldIdx_basic _).1]
  -- the sums
  have S1 : ∑ j ∈ Finset.range m.var.total, (r.upper j * ou j + r.lower j * ol j) = -∑ p, (s.MU_PMIN p * (pmin p - d.pmin p) - s.MU_PMAX p * (pmax p - d.pmax p)) := by
    have : ∑ j ∈ Finset.range m.var.total, (r.upper j * ou j + r.lower j * ol j) = ∑ j ∈ Finset.range m.var.total, r.upper j * vu j + ∑ j ∈ Finset.range m.var.total, r.lower j * vl j := by
      rw [← Finset.sum_add_distrib]
      refine Finset.sum_congr rfl fun j hj => ?_
      show r.upper j * (if j < m.var.total then vu j else ru (j - m.var.total)) + r.lower j * (if j < m.var.total then vl j else rl (j - m.var.total)) = _
      rw [if_pos (Finset.mem_range.1 hj), if_pos (Finset.mem_range.1 hj)]
    rw [this, sum_win _ _ _ _ hn1, sum_win _ _ _ _ hn1, ← Finset.sum_add_distrib, ← Finset.sum_neg_distrib]
    refine Finset.sum_congr rfl fun p _ => ?_
    rw [f4, f5]
    ring
  have S2 : ∑ k ∈ Finset.range q.nA, (r.mu_u k * ou (m.var.total + k) + r.mu_l k * ol (m.var.total + k)) =
      -∑ b, s.LAM_P b * (pd b - (d.bus b).PD) + ∑ l, (s.MU_SF l + s.MU_ST l) * (rate l - d.rateA l) := by
    have : ∑ k ∈ Finset.range q.nA, (r.mu_u k * ou (m.var.total + k) + r.mu_l k * ol (m.var.total + k)) =
        ∑ k ∈ Finset.range q.nA, r.mu_u k * win 0 nb (fun b => -(pd b - (d.bus b).PD) / d.base) k + ∑ k ∈ Finset.range q.nA, r.mu_u k * win nb d.il.length dr k +
          ∑ k ∈ Finset.range q.nA, r.mu_u k * win (nb + d.il.length) d.il.length dr k + ∑ k ∈ Finset.range q.nA, r.mu_l k * rl k := by
      rw [← Finset.sum_add_distrib, ← Finset.sum_add_distrib, ← Finset.sum_add_distrib]
      refine Finset.sum_congr rfl fun j hj => ?_
      show r.mu_u j * (if m.var.total + j < m.var.total then vu (m.var.total + j) else ru (m.var.total + j - m.var.total)) + r.mu_l j * (if m.var.total + j < m.var.total then vl (m.var.total + j) else rl (m.var.total + j - m.var.total)) = _
      rw [if_neg (by omega), if_neg (by omega), Nat.add_sub_cancel_left]
      show r.mu_u j * (win 0 nb _ j + win nb d.il.length dr j + win (nb + d.il.length) d.il.length dr j) + _ = _
      ring
    rw [this, sum_win _ _ _ _ (by omega), sum_win _ _ _ _ (by omega), sum_win _ _ _ _ hA1, sum_win _ _ _ _ (by omega)]
    have t1 : ∑ l, (s.MU_SF l + s.MU_ST l) * (rate l - d.rateA l) =
        ∑ k : Fin d.il.length, r.mu_u (nb + k) * dr k + ∑ k : Fin d.il.length, r.mu_u (nb + d.il.length + k) * dr k := by
      simp only [add_mul, Finset.sum_add_distrib, f2, f3]
      rw [sum_atIl _ (il_nodup d), sum_atIl _ (il_nodup d)]
      congr 1
      · exact Finset.sum_congr rfl fun k _ => by show _ = _ * (_ / _); ring
      · exact Finset.sum_congr rfl fun k _ => by show _ = _ * (_ / _); ring
    have t2 : -∑ b, s.LAM_P b * (pd b - (d.bus b).PD) = ∑ b : Fin nb, r.mu_u (0 + b) * (-(pd b - (d.bus b).PD) / d.base) + ∑ b : Fin nb, r.mu_l (0 + b) * ((pd b - (d.bus b).PD) / d.base) := by
      rw [← Finset.sum_add_distrib, ← Finset.sum_neg_distrib]
      refine Finset.sum_congr rfl fun b _ => ?_
      rw [f1, zero_add]
      ring
    rw [t1, t2]
    ring
  have S3 : ∑ k ∈ Finset.range (m.var.total + q.nA), (if Equal (q.ll m.var.total k) (q.uu m.var.total k) then 0 else |ou k| + |ol k|) ≤
      1 / d.base * (∑ p, (|pmin p - d.pmin p| + |pmax p - d.pmax p|) + 2 * ∑ l, |rate l - d.rateA l|) := by
    have hdr : ∑ k : Fin d.il.length, |dr k| ≤ 1 / d.base * ∑ l, |rate l - d.rateA l| := by
      have := sum_il_le d.il (il_nodup d) (fun l => |rate l - d.rateA l|) fun l => abs_nonneg _
      have e : ∑ k : Fin d.il.length, |dr k| = 1 / d.base * ∑ k : Fin d.il.length, |rate (d.il.get k) - d.rateA (d.il.get k)| := by
        rw [Finset.mul_sum]
        refine Finset.sum_congr rfl fun k _ => ?_
        show |(_ - _) / _| = _
        rw [abs_div, abs_of_pos hb]
        ring
      rw [e]
      exact mul_le_mul_of_nonneg_left this (by positivity)
    rw [Finset.sum_range_add]
    have p1 : ∑ k ∈ Finset.range m.var.total, (if Equal (q.ll m.var.total k) (q.uu m.var.total k) then 0 else |ou k| + |ol k|) ≤ 1 / d.base * ∑ p, (|pmin p - d.pmin p| + |pmax p - d.pmax p|) := by
      have : ∀ k ∈ Finset.range m.var.total, (if Equal (q.ll m.var.total k) (q.uu m.var.total k) then 0 else |ou k| + |ol k|) ≤
          1 * win nb ng (fun p => |(pmax p - d.pmax p) / d.base|) k + 1 * win nb ng (fun p => |-(pmin p - d.pmin p) / d.base|) k := by
        intro k hk
        rw [one_mul, one_mul, ← win_abs, ← win_abs]
        split_ifs
        · positivity
        · show |if k < m.var.total then vu k else ru (k - m.var.total)| + |if k < m.var.total then vl k else rl (k - m.var.total)| ≤ _
          rw [if_pos (Finset.mem_range.1 hk), if_pos (Finset.mem_range.1 hk)]
      refine (Finset.sum_le_sum this).trans (le_of_eq ?_)
      rw [Finset.sum_add_distrib, sum_win _ _ _ _ hn1 fun _ => 1, sum_win _ _ _ _ hn1 fun _ => 1, ← Finset.sum_add_distrib, Finset.mul_sum]
      refine Finset.sum_congr rfl fun p _ => ?_
      rw [abs_div, abs_div, abs_neg, abs_of_pos hb]
      ring
    have p2 : ∑ k ∈ Finset.range q.nA, (if Equal (q.ll m.var.total (m.var.total + k)) (q.uu m.var.total (m.var.total + k)) then 0 else |ou (m.var.total + k)| + |ol (m.var.total + k)|) ≤
        ∑ k : Fin d.il.length, |dr k| + ∑ k : Fin d.il.length, |dr k| := by
      have : ∀ k ∈ Finset.range q.nA, (if Equal (q.ll m.var.total (m.var.total + k)) (q.uu m.var.total (m.var.total + k)) then 0 else |ou (m.var.total + k)| + |ol (m.var.total + k)|) ≤
          1 * win nb d.il.length (fun k => |dr k|) k + 1 * win (nb + d.il.length) d.il.length (fun k => |dr k|) k := by
        intro k hk
        rw [one_mul, one_mul, ← win_abs, ← win_abs]
        split_ifs with hE
        · positivity
        · have hkb : ¬ k < nb := fun h => hE (by
            have := (hrw k (Finset.mem_range.1 hk)).2.2 h
            unfold Linear.ll Linear.uu
            rw [if_neg (by omega), if_neg (by omega), Nat.add_sub_cancel_left]
            exact this)
          show |if m.var.total + k < m.var.total then vu (m.var.total + k) else ru (m.var.total + k - m.var.total)| + |if m.var.total + k < m.var.total then vl (m.var.total + k) else rl (m.var.total + k - m.var.total)| ≤ _
          rw [if_neg (by omega), if_neg (by omega), Nat.add_sub_cancel_left]
          have w : rl k = 0 := win_out _ _ _ _ (Or.inr (by omega))
          rw [w, abs_zero, add_zero]
          show |win 0 nb _ k + win nb d.il.length dr k + win (nb + d.il.length) d.il.length dr k| ≤ _
          rw [win_out 0 _ _ _ (Or.inr (by omega)), zero_add]
          exact abs_add_le _ _
      refine (Finset.sum_le_sum this).trans (le_of_eq ?_)
      rw [Finset.sum_add_distrib, sum_win _ _ _ _ (by omega) fun _ => 1, sum_win _ _ _ _ hA1 fun _ => 1]
      simp only [one_mul]
    rw [mul_add]
    linarith
  rw [hnA, Fintype.card_fin, zero_add] at main
  rw [← hnA, S1, S2] at main
  have hcm : 0 ≤ 1 / 10 ^ 5 / o.costMult := by positivity
  have S4 := mul_le_mul_of_nonneg_left S3 hcm
  have e6 : 1 / 10 ^ 5 / o.costMult * (1 / d.base * (∑ p, (|pmin p - d.pmin p| + |pmax p - d.pmax p|) + 2 * ∑ l, |rate l - d.rateA l|)) =
      1 / 10 ^ 5 / (o.costMult * d.base) * (∑ p, (|pmin p - d.pmin p| + |pmax p - d.pmax p|) + 2 * ∑ l, |rate l - d.rateA l|) := by
    field_simp
  rw [e6] at S4
  rw [hx, e2, e4, e5, ← hnA]
  simp only [hx']
  have ef : (qp H C).f (fun i : Fin m.var.total => y i) = 1 / 2 * ((fun i : Fin m.var.total => y i) ⬝ᵥ (H *ᵥ fun i : Fin m.var.total => y i)) +
    C ⬝ᵥ (fun i : Fin m.var.total => y i) := rfl
  rw [ef] at main
  linarith

end Verif.Opf
