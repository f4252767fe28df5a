import Verif.Network.Lemmas
import Verif.Network.Spec

/-!
# Properties of the network matrices (C22-C27)
-/

set_option linter.unusedSectionVars false

namespace Verif.Network
open Matrix Complex ComplexConjugate

variable {B L G : Type} [Fintype B] [Fintype L] [Fintype G] [DecidableEq B] [DecidableEq L] [DecidableEq G]

theorem ctap_eq_turns (br : Branch B) : ctap br = turns br := by
  unfold ctap turns tapRatio
  simp only
  congr 1
  have e : I * (Real.pi : ℂ) / 180 * br.shift = ((br.shift * Real.pi / 180 : ℝ) : ℂ) * I := by push_cast; ring
  rw [e, Complex.exp_mul_I, Complex.ofReal_cos, Complex.ofReal_sin]; ring

/-- **C22.** For every voltage vector: the entries of `Yf V`, `Yt V` of an in-service branch are the end currents of the standard branch model, those of
an out-of-service branch are zero, and `Ybus V` at each bus is the shunt current plus the currents entering all branches attached to the bus
(parallel branches and self loops included). -/
theorem C22_kirchhoff (baseMVA : ℝ) (bus : B → Bus) (branch : L → Branch B) (V : B → ℂ) :
    (∀ l, InService (branch l) → ((branch l).r : ℂ) + I * (branch l).x ≠ 0 →
      PiModel (branch l) (V (branch l).f) (V (branch l).t) ((Yf branch *ᵥ V) l) ((Yt branch *ᵥ V) l)) ∧
    (∀ l, (branch l).stat = 0 → (Yf branch *ᵥ V) l = 0 ∧ (Yt branch *ᵥ V) l = 0) ∧
    (∀ i, (Ybus baseMVA bus branch *ᵥ V) i =
      (((bus i).GS : ℂ) + I * (bus i).BS) / baseMVA * V i +
      (∑ l with (branch l).f = i, (Yf branch *ᵥ V) l) + (∑ l with (branch l).t = i, (Yt branch *ᵥ V) l)) := by
  refine ⟨?_, ?_, ?_⟩
  · intro l hs hz
    have ha := ctap_ne (branch l)
    have hca : conj (ctap (branch l)) ≠ 0 := by simpa using ha
    have hY : Ys (branch l) = 1 / (((branch l).r : ℂ) + I * (branch l).x) := by simp [Ys, show (branch l).stat = 1 from hs]
    have hB : (Bc (branch l) : ℂ) = (branch l).b := by simp [Bc, show (branch l).stat = 1 from hs]
    rw [Yf_mulVec, Yt_mulVec, PiModel, ← ctap_eq_turns]
    generalize V (branch l).f = Vf
    generalize V (branch l).t = Vt
    generalize hz' : ((branch l).r : ℂ) + I * (branch l).x = z at *
    generalize hac : ctap (branch l) = a at *
    have hIE : conj a * (Yff (branch l) * Vf + Yft (branch l) * Vt) =
        (Vf / a - Vt) / z + (I * (branch l).b / 2) * (Vf / a) := by
      simp only [Yff, Yft, Ytt, hY, hB, hac]
      field_simp
      ring
    refine ⟨Vf / a, conj a * (Yff (branch l) * Vf + Yft (branch l) * Vt), (Vf / a - Vt) / z, ?_, ?_, rfl, ?_, hIE, ?_⟩
    · field_simp
    · rw [map_mul, Complex.conj_conj]; field_simp
    · field_simp
    · simp only [Ytf, Ytt, hY, hB, hac]
      field_simp
      ring
  · intro l hs
    rw [Yf_mulVec, Yt_mulVec]
    simp [Yff, Yft, Ytf, Ytt, Ys, Bc, hs]
  · intro i
    rw [Ybus_mulVec, Ysh, Finset.sum_filter, Finset.sum_filter]; ring

/-- **C23.** Out-of-service branches do not influence the bus admittance matrix: it is the one of the table with these rows removed. -/
theorem C23_out_of_service (baseMVA : ℝ) (bus : B → Bus) (branch : L → Branch B) [DecidablePred fun l => (branch l).stat ≠ 0] :
    Ybus baseMVA bus branch = Ybus baseMVA bus (fun l : {l : L // (branch l).stat ≠ 0} => branch l.1) := by
  have key : ∀ F : L → ℂ, (∀ l, (branch l).stat = 0 → F l = 0) → ∑ l, F l = ∑ l : {l : L // (branch l).stat ≠ 0}, F l.1 := by
    intro F hF
    rw [← Finset.sum_subtype (Finset.univ.filter fun l => (branch l).stat ≠ 0) (by simp) F, Finset.sum_filter]
    apply Finset.sum_congr rfl
    intro l _
    by_cases h : (branch l).stat = 0
    · simp [h, hF l h]
    · simp [h]
  ext i j
  rw [Ybus_apply, Ybus_apply]
  rw [key (fun l => if (branch l).f = i then
      (if (branch l).f = j then Yff (branch l) else 0) + (if (branch l).t = j then Yft (branch l) else 0) else 0),
    key (fun l => if (branch l).t = i then
      (if (branch l).f = j then Ytf (branch l) else 0) + (if (branch l).t = j then Ytt (branch l) else 0) else 0)]
  · intro l hl; simp [Ytf, Ytt, Ys, Bc, hl]
  · intro l hl; simp [Yff, Yft, Ytt, Ys, Bc, hl]

/-- **C23.** Without phase shifters the bus admittance matrix is symmetric. -/
theorem C23_symmetric (baseMVA : ℝ) (bus : B → Bus) (branch : L → Branch B) (h : ∀ l, (branch l).shift = 0) :
    (Ybus baseMVA bus branch)ᵀ = Ybus baseMVA bus branch := by
  have hft : ∀ l, Yft (branch l) = Ytf (branch l) := by
    intro l; simp [Yft, Ytf, ctap, h l]
  ext i j
  rw [Matrix.transpose_apply, Ybus_apply, Ybus_apply, ← Finset.sum_add_distrib, ← Finset.sum_add_distrib]
  congr 1
  · apply Finset.sum_congr rfl
    intro l _
    rw [hft l]
    split_ifs <;> ring
  · by_cases hij : i = j
    · subst hij; rfl
    · simp [hij, Ne.symm hij]

/-- **C23.** A tap ratio 0 means 1. -/
theorem C23_tap_zero (baseMVA : ℝ) (bus : B → Bus) (branch : L → Branch B) :
    Ybus baseMVA bus branch = Ybus baseMVA bus (fun l => { branch l with tap := if (branch l).tap = 0 then 1 else (branch l).tap }) := by
  have ht : ∀ br : Branch B, ctap { br with tap := if br.tap = 0 then 1 else br.tap } = ctap br := by
    intro br; unfold ctap tapRatio; by_cases h : br.tap = 0 <;> simp [h]
  ext i j
  rw [Ybus_apply, Ybus_apply]
  simp only [Yff, Yft, Ytf, Ytt, ht]
  rfl

-- Non-vacuity of C22: two buses, one line in service, one out of service.
noncomputable example : Fin 2 → Branch (Fin 2) := fun l => ⟨0, 1, 0, 1, 0, 0, 0, if l = 0 then 1 else 0⟩

example : InService (⟨0, 1, 0, 1, 0, 0, 0, 1⟩ : Branch (Fin 2)) ∧ (((0 : ℝ) : ℂ) + I * ((1 : ℝ) : ℂ) ≠ 0) := by
  constructor
  · rfl
  · simp

/-- **C24.** In the DC model, for every angle vector: the from-end flow is `(θ_f - θ_t - shift)/(x·tap)` for a branch in service and zero otherwise; the
bus injections are the flows leaving minus the flows arriving; they add up to zero over the network; `Bbus` is symmetric with zero row
sums. -/
theorem C24_lossless (branch : L → Branch B) (hstat : ∀ l, (branch l).stat = 0 ∨ (branch l).stat = 1) (θ : B → ℝ) :
    (∀ l, (Bf branch *ᵥ θ) l + Pfinj branch l = dcFlow (branch l) θ) ∧
    (∀ i, (Bbus branch *ᵥ θ) i + Pbusinj branch i =
      (∑ l with (branch l).f = i, dcFlow (branch l) θ) - ∑ l with (branch l).t = i, dcFlow (branch l) θ) ∧
    ∑ i, ((Bbus branch *ᵥ θ) i + Pbusinj branch i) = 0 ∧
    (Bbus branch)ᵀ = Bbus branch ∧ (∀ i, ∑ j, Bbus branch i j = 0) := by
  have hflow : ∀ l, (Bf branch *ᵥ θ) l + Pfinj branch l = dcFlow (branch l) θ := by
    intro l
    rw [Bf_mulVec, Pfinj, dcFlow, bdc]
    rcases hstat l with h | h
    · simp [h]
    · rw [h, if_neg one_ne_zero]
      change 1 / (branch l).x / (if (branch l).tap = 0 then 1 else (branch l).tap) * _ +
        1 / (branch l).x / (if (branch l).tap = 0 then 1 else (branch l).tap) * _ = _
      rw [div_div, ← mul_add, one_div_mul_eq_div]
      congr 1; ring
  have hinj : ∀ i, (Bbus branch *ᵥ θ) i + Pbusinj branch i = ((Cft branch)ᵀ *ᵥ (fun l => dcFlow (branch l) θ)) i := by
    intro i
    rw [Bbus_mulVec, Pbusinj, ← Pi.add_apply, ← Matrix.mulVec_add]
    congr 2
    funext l; exact hflow l
  refine ⟨hflow, ?_, ?_, ?_, ?_⟩
  · intro i; rw [hinj, CftT_mulVec, Finset.sum_filter, Finset.sum_filter]
  · simp only [hinj]; exact sum_CftT branch _
  · ext i j
    simp only [Matrix.transpose_apply, Bbus, Matrix.mul_apply, Bf_apply]
    apply Finset.sum_congr rfl; intro l _; ring
  · intro i
    have : (Bbus branch *ᵥ (fun _ => 1)) i = 0 := by
      rw [Bbus_mulVec]
      have : Bf branch *ᵥ (fun _ => (1 : ℝ)) = 0 := by funext l; simp [Bf_mulVec]
      rw [this]; simp
    simpa [Matrix.mulVec, dotProduct] using this

/-! ### C25 -/

/-- `numpy.linalg.solve(A, b)` returns some `X` with `A X = b` (it raises for a singular matrix). -/
def SolveOK {bus0 : B} (solve : (s : B) → Matrix {i : B // i ≠ bus0} {i : B // i ≠ s} ℝ → Matrix {i : B // i ≠ bus0} L ℝ →
      Matrix {i : B // i ≠ s} L ℝ) (branch : L → Branch B) (s : B) : Prop :=
  (Matrix.of fun (j : {i : B // i ≠ bus0}) (i : {i : B // i ≠ s}) => Bbus branch i.1 j.1) *
      solve s (fun j i => Bbus branch i.1 j.1) (fun j l => Bf branch l j.1) = Matrix.of fun (j : {i : B // i ≠ bus0}) l => Bf branch l j.1

theorem sum_ne {K : Type} [AddCommMonoid K] (s : B) (F : B → K) : ∑ i, F i = F s + ∑ i : {i : B // i ≠ s}, F i.1 := by
  rw [← Finset.add_sum_erase _ _ (Finset.mem_univ s)]
  congr 1
  exact Finset.sum_subtype (Finset.univ.erase s) (by simp) F

theorem ptdf_flow {bus0 : B} (solve : (s : B) → Matrix {i : B // i ≠ bus0} {i : B // i ≠ s} ℝ → Matrix {i : B // i ≠ bus0} L ℝ →
      Matrix {i : B // i ≠ s} L ℝ) (branch : L → Branch B) (s : B) (hs : SolveOK solve branch s) (P θ : B → ℝ)
    (hbal : ∀ i, i ≠ s → (Bbus branch *ᵥ θ) i = P i) : ptdfSingle solve branch s *ᵥ P = Bf branch *ᵥ θ := by
  funext l
  set X := solve s (fun j i => Bbus branch i.1 j.1) (fun j l => Bf branch l j.1) with hX
  have hH : ∀ i : {i : B // i ≠ s}, ptdfSingle solve branch s l i.1 = X i l := by
    intro i; simp [ptdfSingle, hX, i.2]
  have hH0 : ptdfSingle solve branch s l s = 0 := by simp [ptdfSingle]
  -- angles relative to bus 0
  set φ : B → ℝ := fun j => θ j - θ bus0 with hφ
  have hBf : ∀ l, (Bf branch *ᵥ θ) l = (Bf branch *ᵥ φ) l := by
    intro l; simp [Bf_mulVec, hφ]
  have hBb : Bbus branch *ᵥ θ = Bbus branch *ᵥ φ := by
    rw [Bbus_mulVec, Bbus_mulVec]; congr 1; funext l; exact hBf l
  have hφ0 : φ bus0 = 0 := by simp [hφ]
  rw [hBf]
  simp only [Matrix.mulVec, dotProduct]
  rw [sum_ne s, sum_ne bus0 (fun j => Bf branch l j * φ j), hH0, hφ0]
  simp only [zero_mul, mul_zero, zero_add, hH]
  have hP : ∀ i : {i : B // i ≠ s}, P i.1 = ∑ j : {j : B // j ≠ bus0}, Bbus branch i.1 j.1 * φ j.1 := by
    intro i
    rw [← hbal i.1 i.2, hBb]
    simp only [Matrix.mulVec, dotProduct]
    rw [sum_ne bus0, hφ0]; simp
  have hs' : ∀ j : {j : B // j ≠ bus0}, ∑ i : {i : B // i ≠ s}, Bbus branch i.1 j.1 * X i l = Bf branch l j.1 := by
    intro j
    have := congrFun (congrFun hs j) l
    simpa [Matrix.mul_apply] using this
  simp only [hP, Finset.mul_sum]
  rw [Finset.sum_comm]
  apply Finset.sum_congr rfl
  intro j _
  rw [← hs' j, Finset.sum_mul]
  apply Finset.sum_congr rfl
  intro i _; ring

/-- **C25** (single slack): the slack column is zero, and for every injection `P` the product `PTDF * P` is the DC branch flow `Bf θ` of any angles `θ`
whose injections equal `P` at all buses but the slack (which absorbs the imbalance). -/
theorem C25_single_slack {bus0 : B} (solve : (s : B) → Matrix {i : B // i ≠ bus0} {i : B // i ≠ s} ℝ → Matrix {i : B // i ≠ bus0} L ℝ →
      Matrix {i : B // i ≠ s} L ℝ) (branch : L → Branch B) (s : B) (hs : SolveOK solve branch s) :
    (∀ l, makePTDF solve branch (.bus s) l s = 0) ∧
    ∀ P θ : B → ℝ, (∀ i, i ≠ s → (Bbus branch *ᵥ θ) i = P i) → makePTDF solve branch (.bus s) *ᵥ P = Bf branch *ᵥ θ := by
  constructor
  · intro l; simp [makePTDF, ptdfSingle]
  · intro P θ h; exact ptdf_flow solve branch s hs P θ h

/-- **C25** (distributed slack): with weights `w` (their sum must not be 0: otherwise numpy gives `nan`) every imbalance is shared out in proportion to the weights, and the matrix is the single
slack one times `I - w 1'`. -/
theorem C25_weights {bus0 : B} (solve : (s : B) → Matrix {i : B // i ≠ bus0} {i : B // i ≠ s} ℝ → Matrix {i : B // i ≠ bus0} L ℝ →
      Matrix {i : B // i ≠ s} L ℝ) (branch : L → Branch B) (hs : SolveOK solve branch bus0) (w : B → ℝ) :
    makePTDF solve branch (.weights w) =
      makePTDF solve branch (.bus bus0) * (1 - Matrix.vecMulVec (fun i => w i / ∑ j, w j) (fun _ => 1)) ∧
    ∀ P θ : B → ℝ, (∀ i, (Bbus branch *ᵥ θ) i = P i - w i / (∑ j, w j) * ∑ j, P j) →
      makePTDF solve branch (.weights w) *ᵥ P = Bf branch *ᵥ θ := by
  have h1 : makePTDF solve branch (.weights w) =
      makePTDF solve branch (.bus bus0) * (1 - Matrix.vecMulVec (fun i => w i / ∑ j, w j) (fun _ => 1)) := by
    ext l k
    rw [Matrix.mul_sub, Matrix.mul_one, Matrix.sub_apply]
    simp only [makePTDF, Matrix.mulVec, dotProduct, Matrix.mul_apply, Matrix.vecMulVec_apply, mul_one]
  refine ⟨h1, ?_⟩
  intro P θ h
  rw [h1, ← Matrix.mulVec_mulVec]
  apply ptdf_flow solve branch bus0 hs
  intro i _
  rw [h i, Matrix.sub_mulVec, Matrix.one_mulVec, Pi.sub_apply]
  congr 1
  simp [Matrix.mulVec, dotProduct, Matrix.vecMulVec_apply, Finset.mul_sum]

/-- **C25** (slack matrix): column `k` of the slack matrix `M` says how an injection at bus `k` is balanced; each column is balanced by its own flows. -/
theorem C25_matrix {bus0 : B} (solve : (s : B) → Matrix {i : B // i ≠ bus0} {i : B // i ≠ s} ℝ → Matrix {i : B // i ≠ bus0} L ℝ →
      Matrix {i : B // i ≠ s} L ℝ) (branch : L → Branch B) (hs : SolveOK solve branch bus0) (M : Matrix B B ℝ) (P θ : B → ℝ)
    (h : ∀ i, (Bbus branch *ᵥ θ) i = (M *ᵥ P) i) : makePTDF solve branch (.mat M) *ᵥ P = Bf branch *ᵥ θ := by
  simp only [makePTDF]
  rw [← Matrix.mulVec_mulVec]
  exact ptdf_flow solve branch bus0 hs _ θ (fun i _ => h i)

/-! ### C26 -/

/-- Take branch `k` out of service. -/
def outage (branch : L → Branch B) (k : L) : L → Branch B := Function.update branch k { branch k with stat := 0 }

theorem makeLODF_apply (branch : L → Branch B) (H : Matrix L B ℝ) (l k : L) :
    makeLODF branch H l k = (H * (Cft branch)ᵀ) l k / (1 - (H * (Cft branch)ᵀ) k k) -
      Matrix.diagonal (fun l => (H * (Cft branch)ᵀ) l l / (1 - (H * (Cft branch)ᵀ) l l)) l k - (1 : Matrix L L ℝ) l k := rfl

/-- **C26.** Let `θ` be the angles before and `θ'` the angles after the outage of branch `k`, with the same bus injections.  If the outage does not split
the network (`PTDF` transfer factor of `k` onto itself ≠ 1), the flow on every branch `l` after the outage is its flow before plus `LODF[l,k]`
times the flow on `k` before; the diagonal of `LODF` is `-1`, and branch `k` carries nothing afterwards. -/
theorem C26_outage {bus0 : B} (solve : (s : B) → Matrix {i : B // i ≠ bus0} {i : B // i ≠ s} ℝ → Matrix {i : B // i ≠ bus0} L ℝ →
      Matrix {i : B // i ≠ s} L ℝ) (branch : L → Branch B) (s : B) (hs : SolveOK solve branch s) (k : L)
    (hk : makePTDF solve branch (.bus s) k (branch k).f - makePTDF solve branch (.bus s) k (branch k).t ≠ 1)
    (θ θ' : B → ℝ)
    (hP : ∀ i, (Bbus branch *ᵥ θ) i + Pbusinj branch i = (Bbus (outage branch k) *ᵥ θ') i + Pbusinj (outage branch k) i) :
    (∀ l, (Bf (outage branch k) *ᵥ θ') l + Pfinj (outage branch k) l =
      (Bf branch *ᵥ θ) l + Pfinj branch l +
        makeLODF branch (makePTDF solve branch (.bus s)) l k * ((Bf branch *ᵥ θ) k + Pfinj branch k)) ∧
    (∀ l, makeLODF branch (makePTDF solve branch (.bus s)) l l = -1) ∧
    (Bf (outage branch k) *ᵥ θ') k + Pfinj (outage branch k) k = 0 := by
  set H := makePTDF solve branch (.bus s) with hH
  set F : L → ℝ := fun l => (Bf branch *ᵥ θ) l + Pfinj branch l with hF
  set F' : L → ℝ := fun l => (Bf (outage branch k) *ᵥ θ') l + Pfinj (outage branch k) l with hF'
  have hC : Cft (outage branch k) = Cft branch := by
    ext l i
    simp only [Cft_apply]
    by_cases h : l = k
    · subst h; simp [outage]
    · simp [outage, h]
  have hbk : bdc (outage branch k k) = 0 := by simp [outage, bdc]
  have hbl : ∀ l, l ≠ k → outage branch k l = branch l := by intro l h; simp [outage, h]
  have hF'k : F' k = 0 := by simp [hF', Bf_mulVec, Pfinj, hbk]
  have hdF : ∀ l, l ≠ k → F' l = F l + (Bf branch *ᵥ (θ' - θ)) l := by
    intro l hl
    simp only [hF', hF, Bf_mulVec, Pfinj, hbl l hl, Pi.sub_apply]; ring
  -- injections as flow sums
  have hbal : (Cft branch)ᵀ *ᵥ F = (Cft branch)ᵀ *ᵥ F' := by
    funext i
    have := hP i
    rw [Bbus_mulVec, Bbus_mulVec, Pbusinj, Pbusinj, hC, ← Pi.add_apply, ← Pi.add_apply, ← Matrix.mulVec_add, ← Matrix.mulVec_add] at this
    exact this
  set g := (Bf branch *ᵥ (θ' - θ)) k with hg
  have hinj : Bbus branch *ᵥ (θ' - θ) = fun i => Cft branch k i * (F k + g) := by
    have e : Bf branch *ᵥ (θ' - θ) = (F' - F) + fun l => if l = k then F k + g else 0 := by
      funext l
      by_cases hl : l = k
      · subst hl; simp [hF'k, ← hg]
      · simp [hl, hdF l hl]
    rw [Bbus_mulVec, e, Matrix.mulVec_add, Matrix.mulVec_sub, hbal, sub_self, zero_add]
    funext i
    simp [Matrix.mulVec, dotProduct]
  have hflow : ∀ l, (Bf branch *ᵥ (θ' - θ)) l = (H * (Cft branch)ᵀ) l k * (F k + g) := by
    intro l
    have := congrFun (ptdf_flow solve branch s hs (fun i => Cft branch k i * (F k + g)) (θ' - θ) (fun i _ => by rw [hinj])) l
    rw [← this, hH]
    simp only [makePTDF, Matrix.mulVec, dotProduct, Matrix.mul_apply, Matrix.transpose_apply, Finset.sum_mul]
    apply Finset.sum_congr rfl; intro i _; ring
  have hHk : (H * (Cft branch)ᵀ) k k = H k (branch k).f - H k (branch k).t := by
    simp only [Matrix.mul_apply, Matrix.transpose_apply, Cft_apply, mul_add, Finset.sum_add_distrib]
    simp; ring
  have hne : 1 - (H * (Cft branch)ᵀ) k k ≠ 0 := by
    rw [hHk]; intro h; exact hk (by linarith)
  have hgk := hflow k
  rw [← hg] at hgk
  have hsum : F k + g = F k / (1 - (H * (Cft branch)ᵀ) k k) := by
    rw [eq_div_iff hne]; linear_combination hgk
  have hdiag : ∀ l, makeLODF branch H l l = -1 := by
    intro l
    rw [makeLODF_apply]; simp
  refine ⟨?_, hdiag, hF'k⟩
  intro l
  by_cases hl : l = k
  · subst hl
    rw [hdiag]
    change F' l = F l + -1 * F l
    rw [hF'k]; ring
  · change F' l = F l + makeLODF branch H l k * F k
    rw [hdF l hl, hflow l, hsum]
    rw [makeLODF_apply, Matrix.diagonal_apply_ne _ hl, Matrix.one_apply_ne hl]
    ring

/-- Two buses joined by two equal parallel lines. -/
def exBranch : Fin 2 → Branch (Fin 2) := fun _ => ⟨0, 1, 0, 1, 0, 0, 0, 1⟩

/-- A linear solver that is right for 1 x 1 systems. -/
noncomputable def exSolve : (s : Fin 2) → Matrix {i : Fin 2 // i ≠ 0} {i : Fin 2 // i ≠ s} ℝ → Matrix {i : Fin 2 // i ≠ 0} (Fin 2) ℝ →
    Matrix {i : Fin 2 // i ≠ s} (Fin 2) ℝ := fun _ A b i l => b ⟨1, by decide⟩ l / A ⟨1, by decide⟩ i

-- Non-vacuity of C25 and C26: the solver contract and the no-islanding condition hold for the two parallel lines.
theorem exSolveOK : SolveOK exSolve exBranch 1 := by
  have hb : Bbus exBranch 0 1 = -2 := by
    simp [Bbus, Matrix.mul_apply, Bf_apply, Cft_apply, exBranch, bdc, tapRatio]
  ext j l
  obtain ⟨j, hj⟩ := j
  have hj1 : j = 1 := by omega
  subst hj1
  rw [Matrix.mul_apply, Finset.sum_eq_single (⟨0, by decide⟩ : {i : Fin 2 // i ≠ 1})]
  · simp only [Matrix.of_apply, exSolve, hb]
    field_simp
  · rintro ⟨i, hi⟩ _ h
    exact absurd (Subtype.ext (by omega : i = 0)) h
  · intro h; exact absurd (Finset.mem_univ _) h

example : makePTDF exSolve exBranch (.bus 1) 0 (exBranch 0).f - makePTDF exSolve exBranch (.bus 1) 0 (exBranch 0).t ≠ 1 := by
  have hb : Bbus exBranch 0 1 = -2 := by
    simp [Bbus, Matrix.mul_apply, Bf_apply, Cft_apply, exBranch, bdc, tapRatio]
  have hf : Bf exBranch 0 1 = -1 := by simp [Bf_apply, Cft_apply, exBranch, bdc, tapRatio]
  have h0 : makePTDF exSolve exBranch (.bus 1) 0 0 = Bf exBranch 0 1 / Bbus exBranch 0 1 := by
    simp [makePTDF, ptdfSingle, exSolve]
  have h1 : makePTDF exSolve exBranch (.bus 1) 0 1 = 0 := by simp [makePTDF, ptdfSingle]
  change makePTDF exSolve exBranch (.bus 1) 0 0 - makePTDF exSolve exBranch (.bus 1) 0 1 ≠ 1
  rw [h0, h1, hb, hf]
  norm_num

/-! ### C27 -/

/-- **C27.** The complex injection at a bus is the sum of the outputs of its in-service generators minus its demand, in p.u. -/
theorem C27_injections (baseMVA : ℝ) (bus : B → Bus) (gen : G → Gen B) (i : B) :
    makeSbus baseMVA bus gen i =
      ((∑ g with (gen g).stat > 0 ∧ (gen g).bus = i, ((gen g).PG + I * (gen g).QG : ℂ)) - ((bus i).PD + I * (bus i).QD)) / baseMVA := by
  unfold makeSbus
  congr 2
  have h : ∀ g : {g : G // (gen g).stat > 0}, coo (fun g : {g : G // (gen g).stat > 0} => (gen g.1).bus) id (fun _ => (1 : ℂ)) i g =
      if (gen g.1).bus = i then 1 else 0 := by
    intro g
    unfold coo
    rw [Finset.sum_eq_single g]
    · simp
    · intro k _ hk; simp [hk]
    · intro h; exact absurd (Finset.mem_univ g) h
  simp only [Matrix.mulVec, dotProduct, h, ite_mul, one_mul, zero_mul]
  rw [← Finset.sum_subtype (Finset.univ.filter fun g => (gen g).stat > 0) (by simp)
    (fun g => if (gen g).bus = i then ((gen g).PG + I * (gen g).QG : ℂ) else 0), ← Finset.sum_filter, Finset.filter_filter]

end Verif.Network
