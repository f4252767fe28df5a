import Verif.Opf.DcLemmas

/-!
# C77, C78: what a successful DC optimal power flow reports

The tables are in MW and degrees; tolerances are those of the interior point solver (C76), converted to MW.
-/

open Matrix

namespace Verif.Opf

open Verif.OpfModel Verif.Pips Verif.Network

variable {nb ng nl : ℕ}

/-! ### Specification -/

/-- Net power leaving bus `b` according to a result table: generation − demand − shunt − flows into the branches at `b`. -/
noncomputable def mismatchP (d : Case nb ng nl) (PG : Fin ng → ℝ) (PF PT : Fin nl → ℝ) (b : Fin nb) : ℝ :=
  ∑ g with (d.gen g).bus = b, PG g - (d.bus b).PD - (d.bus b).GS - ∑ l with (d.branch l).f = b, PF l - ∑ l with (d.branch l).t = b, PT l

/-- The requirements on the case under which the formulation is well posed: limits in order and finite per unit, finite demand. -/
structure Case.DcOK (d : Case nb ng nl) : Prop where
  base : 0 < d.base
  stat : ∀ l, (d.branch l).stat = 1
  order : ∀ g, d.pmin g ≤ d.pmax g
  fin : ∀ g, Finite (d.pmin g / d.base) ∧ Finite (d.pmax g / d.base)
  va : ∀ b, Finite (d.vaRad b)
  dem : ∀ b, Finite (d.bmis b)

/-! ### Lemmas -/

/-- A well-posed case gives a well-formed model. -/
theorem Case.DcOK.good {d : Case nb ng nl} (h : d.DcOK) : Good (dcOps d) := by
  have hvv : varVals (dcOps d) = [("Va", ⟨nb, some (vec d.vaRad), some d.val, some d.vau⟩),
      ("Pg", ⟨ng, some (vec fun g => (d.gen g).PG / d.base), some (vec fun g => d.pmin g / d.base), some (vec fun g => d.pmax g / d.base)⟩)] := rfl
  have hlb : linBlks (dcOps d) = [("Pmis", ⟨hcat (Bbus d.branch) d.negCg, vec d.bmis, vec d.bmis, ["Va", "Pg"]⟩),
      ("Pf", ⟨matOf d.BfIl, List.replicate d.il.length ⊥, vec d.upf, ["Va"]⟩),
      ("Pt", ⟨matOf (-d.BfIl), List.replicate d.il.length ⊥, vec d.upt, ["Va"]⟩)] := rfl
  have lenL : d.val.length = nb := by simp [Case.val]
  have lenU : d.vau.length = nb := by simp [Case.vau]
  refine ⟨?_, ?_, ?_, ?_, ?_, ?_⟩
  · rw [show varBlocks (dcOps d) = [("Va", nb), ("Pg", ng)] from rfl]; simp [names]
  · rw [hlb]; simp [names]
  · rw [hvv]
    simp only [List.mem_cons, List.not_mem_nil, or_false, forall_eq_or_imp, forall_eq, VarFits]
    exact ⟨⟨orDefault_len _ _ lenL, orDefault_len _ _ lenU⟩, orDefault_len _ _ (vec_length _), orDefault_len _ _ (vec_length _)⟩
  · rw [hlb, show varBlocks (dcOps d) = [("Va", nb), ("Pg", ng)] from rfl]
    simp only [List.mem_cons, List.not_mem_nil, or_false, forall_eq_or_imp, forall_eq]
    refine ⟨⟨by simp, ?_, Or.inr ?_, Or.inr ?_⟩, ⟨by simp, ?_, Or.inr ?_, Or.inr ?_⟩, ⟨by simp, ?_, Or.inr ?_, Or.inr ?_⟩⟩ <;>
      simp [hcat, matOf, widthOf, eff, size, vec_length]
  · rw [hvv]
    simp only [List.mem_cons, List.not_mem_nil, or_false, forall_eq_or_imp, forall_eq]
    constructor
    · intro i hi
      rw [varLo_val _ _ _ _ hi, varHi_vau _ _ _ _ hi]
      split_ifs
      · exact sane_real le_rfl (h.va _) (h.va _)
      · exact sane_free
    · intro i hi
      rw [varLo_vec _ _ _ _ hi, varHi_vec _ _ _ _ hi]
      exact sane_real (div_le_div_of_nonneg_right (h.order _) h.base.le) (h.fin _).1 (h.fin _).2
  · rw [hlb]
    simp only [List.mem_cons, List.not_mem_nil, or_false, forall_eq_or_imp, forall_eq]
    refine ⟨?_, ?_, ?_⟩
    · intro i (hi : i < nb)
      rw [linLo_vec _ _ _ _ _ hi, linHi_vec _ _ _ _ _ hi]
      exact sane_real le_rfl (h.dem _) (h.dem _)
    · intro i (hi : i < d.il.length)
      rw [linLo_bot, linHi_vec _ _ _ _ _ hi]
      exact sane_bot (EReal.coe_ne_bot _)
    · intro i (hi : i < d.il.length)
      rw [linLo_bot, linHi_vec _ _ _ _ _ hi]
      exact sane_bot (EReal.coe_ne_bot _)

/-- The blocks of the formulation, first the DC ones, then the rest. -/
theorem dc_varVals (d : Case nb ng nl) (extra : List Op) : varVals (dcOps d ++ extra) =
    ("Va", ⟨nb, some (vec d.vaRad), some d.val, some d.vau⟩) ::
      ("Pg", ⟨ng, some (vec fun g => (d.gen g).PG / d.base), some (vec fun g => d.pmin g / d.base), some (vec fun g => d.pmax g / d.base)⟩) ::
        varVals extra := by
  simp [dcOps, varVals]

theorem dc_linBlks (d : Case nb ng nl) (extra : List Op) : linBlks (dcOps d ++ extra) =
    ("Pmis", ⟨hcat (Bbus d.branch) d.negCg, vec d.bmis, vec d.bmis, ["Va", "Pg"]⟩) ::
      ("Pf", ⟨matOf d.BfIl, List.replicate d.il.length ⊥, vec d.upf, ["Va"]⟩) ::
        ("Pt", ⟨matOf (-d.BfIl), List.replicate d.il.length ⊥, vec d.upt, ["Va"]⟩) :: linBlks extra := by
  simp [dcOps, linBlks]

/-! ### C77 -/

section
variable (d : Case nb ng nl) (extra : List Op) (m : Model) (hm : OpfModel.run (dcOps d ++ extra) = some m) (g : Good (dcOps d ++ extra)) (hb : 0 < d.base)
  (H : Matrix (Fin m.var.total) (Fin m.var.total) ℝ) (C : Fin m.var.total → ℝ) (C0 : ℝ) (o : Opt) (solve : AnySolver) (x0 : Fin m.var.total → ℝ)
  (s : DcRes nb ng nl) (hs : dcopfSolver d m H C C0 o solve x0 = some s)

include hm g hb hs

/-- **C77 (balance).**  On success the reported generation, demand, shunts and branch flows balance at every bus. -/
theorem C77_balance (hok : s.success = true) (b : Fin nb) : |mismatchP d s.PG s.PF s.PT b| < s.tol * d.base := by
  obtain ⟨q, r, hq, hr, e1, -, -, e4, -, -, eG, eF, eT, -⟩ := dc_ofSolver hm g hs
  obtain ⟨-, -, -, hl⟩ := solved_blocks hm g hq (qp H C) o solve x0 r hr (by rw [← e1]; exact hok)
  have := hl _ (by rw [dc_linBlks]; exact List.mem_cons_self) b b.isLt
  rw [linLo_vec _ _ _ _ _ b.isLt, linHi_vec _ _ _ _ _ b.isLt, Pmis_row] at this
  have hsane := g.linSane _ (by rw [dc_linBlks]; exact List.mem_cons_self) b b.isLt
  rw [linLo_vec _ _ _ _ _ b.isLt, linHi_vec _ _ _ _ _ b.isLt] at hsane
  have hE := hsane.2.2.2 ⟨_, _, rfl, rfl, by simp⟩
  rw [EReal.coe_lt_coe_iff, EReal.coe_lt_coe_iff] at hE
  have hu := within_upper this hE.2
  have hlo := within_lower this hE.1
  rw [← e4] at hu hlo
  have hmis : mismatchP d s.PG s.PF s.PT b =
      -d.base * ((Bbus d.branch *ᵥ fun j => pad r.x j) b - ∑ g with (d.gen g).bus = b, pad r.x (nb + g) - d.bmis b) := by
    have eB : (Bbus d.branch *ᵥ fun j => pad r.x j) b + Pbusinj d.branch b =
        ∑ l with (d.branch l).f = b, ((Bf d.branch *ᵥ fun j => pad r.x j) l + Pfinj d.branch l) -
          ∑ l with (d.branch l).t = b, ((Bf d.branch *ᵥ fun j => pad r.x j) l + Pfinj d.branch l) := by
      rw [Pbusinj, Bbus_mulVec, CftT_mulVec, CftT_mulVec]
      simp only [← Finset.sum_filter, Finset.sum_add_distrib]
      ring
    have e2 : d.bmis b * d.base = -((d.bus b).PD + (d.bus b).GS) - Pbusinj d.branch b * d.base := by
      unfold Case.bmis
      field_simp
    unfold mismatchP
    simp only [eG, eT, eF, Finset.sum_neg_distrib, ← Finset.sum_mul]
    linear_combination d.base * eB - e2
  rw [hmis, abs_mul, abs_neg, abs_of_pos hb, mul_comm]
  refine mul_lt_mul_of_pos_right ?_ hb
  simp only [Fin.eta] at hu hlo
  rw [abs_lt]
  constructor <;> linarith

/-- **C77 (flow limits).**  On success the reported flow of every branch with a limit stays within `RATE_A`, in both directions. -/
theorem C77_flow_limit (hok : s.success = true) (l : Fin nl) (hl : d.rateA l ≠ 0 ∧ d.rateA l < 10 ^ 10)
    (hf : d.rateA l / d.base + |Pfinj d.branch l| < 10 ^ 10) :
    |s.PF l| < d.rateA l + s.tol * d.base ∧ |s.PT l| < d.rateA l + s.tol * d.base := by
  obtain ⟨q, r, hq, hr, e1, -, -, e4, -, -, eG, eF, eT, -⟩ := dc_ofSolver hm g hs
  obtain ⟨-, -, -, hlin⟩ := solved_blocks hm g hq (qp H C) o solve x0 r hr (by rw [← e1]; exact hok)
  have hmem := (mem_il d l).2 hl
  obtain ⟨k, hk⟩ := List.mem_iff_get.1 hmem
  have h1 := hlin ("Pf", _) (by rw [dc_linBlks]; exact List.mem_cons_of_mem _ List.mem_cons_self) k k.isLt
  have h2 := hlin ("Pt", _) (by rw [dc_linBlks]; exact List.mem_cons_of_mem _ (List.mem_cons_of_mem _ List.mem_cons_self)) k k.isLt
  rw [linHi_vec _ _ _ _ _ k.isLt, Pf_row] at h1
  rw [linHi_vec _ _ _ _ _ k.isLt, Pt_row] at h2
  simp only [Fin.eta] at h1 h2
  have hu1 := within_upper h1 (by unfold Case.upf; rw [hk]; have := neg_abs_le (Pfinj d.branch l); linarith)
  have hu2 := within_upper h2 (by unfold Case.upt; rw [hk]; have := le_abs_self (Pfinj d.branch l); linarith)
  rw [← e4] at hu1 hu2
  unfold Case.upf at hu1
  unfold Case.upt at hu2
  rw [hk] at hu1 hu2
  have hF : |s.PF l| < d.rateA l + s.tol * d.base := by
    have er : d.rateA l + s.tol * d.base = (d.rateA l / d.base + s.tol) * d.base := by field_simp
    rw [eF, abs_mul, abs_of_pos hb, er]
    refine mul_lt_mul_of_pos_right ?_ hb
    rw [abs_lt]
    constructor <;> linarith
  exact ⟨hF, by rw [eT, abs_neg]; exact hF⟩

/-- **C77 (output limits).**  On success the reported dispatch respects `PMIN` and `PMAX`. -/
theorem C77_dispatch (hok : s.success = true) (p : Fin ng) :
    (d.pmax p / d.base < 10 ^ 10 → s.PG p < d.pmax p + s.tol * d.base) ∧ (-10 ^ 10 < d.pmin p / d.base → d.pmin p - s.tol * d.base < s.PG p) := by
  obtain ⟨q, r, hq, hr, e1, -, -, e4, -, -, eG, -⟩ := dc_ofSolver hm g hs
  obtain ⟨-, -, hv, -⟩ := solved_blocks hm g hq (qp H C) o solve x0 r hr (by rw [← e1]; exact hok)
  have h1 := hv ("Pg", _) (by rw [dc_varVals]; exact List.mem_cons_of_mem _ List.mem_cons_self) p p.isLt
  rw [varLo_vec _ _ _ _ p.isLt, varHi_vec _ _ _ _ p.isLt, (dc_starts d extra).2.1] at h1
  rw [eG]
  constructor
  · intro hu
    have := within_upper h1 hu
    rw [← e4] at this
    have er : d.pmax p + s.tol * d.base = (d.pmax p / d.base + s.tol) * d.base := by field_simp
    rw [er]
    exact mul_lt_mul_of_pos_right this hb
  · intro hl
    have := within_lower h1 hl
    rw [← e4] at this
    have er : d.pmin p - s.tol * d.base = (d.pmin p / d.base - s.tol) * d.base := by field_simp
    rw [er]
    exact mul_lt_mul_of_pos_right this hb

omit hb in
/-- **C77 (angle reference).**  On success the angle of every reference bus is the one given in the case. -/
theorem C77_reference (hok : s.success = true) (b : Fin nb) (hr : d.isRef b = true) : |s.VA b - d.va b| < s.tol * (180 / Real.pi) := by
  obtain ⟨q, r, hq, hr', e1, -, -, e4, -, eV, -⟩ := dc_ofSolver hm g hs
  obtain ⟨-, -, hv, -⟩ := solved_blocks hm g hq (qp H C) o solve x0 r hr' (by rw [← e1]; exact hok)
  have hmem : ("Va", (⟨nb, some (vec d.vaRad), some d.val, some d.vau⟩ : VarVals)) ∈ varVals (dcOps d ++ extra) := by
    rw [dc_varVals]; exact List.mem_cons_self
  have h1 := hv _ hmem b b.isLt
  have hsane := g.varSane _ hmem b b.isLt
  rw [varLo_val _ _ _ _ b.isLt, varHi_vau _ _ _ _ b.isLt] at h1 hsane
  simp only [Fin.eta, hr, if_true] at h1 hsane
  rw [(dc_starts d extra).1, zero_add] at h1
  have hE := hsane.2.2.2 ⟨_, _, rfl, rfl, by simp⟩
  rw [EReal.coe_lt_coe_iff, EReal.coe_lt_coe_iff] at hE
  have hu := within_upper h1 hE.2
  have hl := within_lower h1 hE.1
  rw [← e4] at hu hl
  have hpi := Real.pi_pos
  have ev : s.VA b - d.va b = (pad r.x b - d.vaRad b) * (180 / Real.pi) := by
    rw [eV, Case.vaRad]
    field_simp
  rw [ev, abs_mul, abs_of_pos (by positivity : 0 < 180 / Real.pi)]
  refine mul_lt_mul_of_pos_right ?_ (by positivity)
  rw [abs_lt]
  constructor <;> linarith

omit hb in
/-- **C77 (flows).**  The reported flows are those of the linear network model at the reported angles, equal and opposite at the two ends, without reactive
power; success or not. -/
theorem C77_flows (hstat : ∀ l, (d.branch l).stat = 0 ∨ (d.branch l).stat = 1) (l : Fin nl) :
    s.PF l = d.base * dcFlow (d.branch l) (fun b => s.VA b * (Real.pi / 180)) ∧ s.PT l = -s.PF l ∧ s.QF l = 0 ∧ s.QT l = 0 := by
  obtain ⟨q, r, hq, hr, e1, -, -, e4, -, eV, eG, eF, eT, eQ, -⟩ := dc_ofSolver hm g hs
  refine ⟨?_, eT l, eQ l⟩
  have hv : (fun b => s.VA b * (Real.pi / 180)) = fun b : Fin nb => pad r.x b := by
    funext b
    have hpi := Real.pi_pos
    rw [eV]
    field_simp
  rw [eF, hv, ← (C24_lossless d.branch hstat fun j : Fin nb => pad r.x j).1 l, mul_comm]

omit hb in
/-- **C77 (further constraints).**  On success every further block of variables is within its bounds and every further block of linear constraints
(angle differences, piecewise linear costs, user constraints, …) holds, at the reported point. -/
theorem C77_extra (hok : s.success = true) :
    (∀ b ∈ varVals extra, ∀ i < b.2.n,
      Within (VarVals.lo b.2 i) (VarVals.hi b.2 i) (s.x (start (varBlocks (dcOps d ++ extra)) b.1 + i)) s.tol) ∧
    (∀ b ∈ linBlks extra, ∀ i < b.2.A.rows, Within (LinBlk.lo b.2 i) (LinBlk.hi b.2 i)
      (rowDot b.2.A i (subvec (varBlocks (dcOps d ++ extra)) s.x (eff (varBlocks (dcOps d ++ extra)) b.2.vs))) s.tol) ∧
    (∀ b : Fin nb, s.VA b = s.x (start (varBlocks (dcOps d ++ extra)) "Va" + b) * (180 / Real.pi)) ∧
    (∀ p : Fin ng, s.PG p = s.x (start (varBlocks (dcOps d ++ extra)) "Pg" + p) * d.base) := by
  obtain ⟨q, r, hq, hr, e1, -, e3, e4, -, eV, eG, -⟩ := dc_ofSolver hm g hs
  obtain ⟨-, -, hv, hl⟩ := solved_blocks hm g hq (qp H C) o solve x0 r hr (by rw [← e1]; exact hok)
  rw [e3, e4]
  refine ⟨fun b hb' => hv b ?_, fun b hb' => hl b ?_, fun b => ?_, fun p => ?_⟩
  · rw [dc_varVals]; exact List.mem_cons_of_mem _ (List.mem_cons_of_mem _ hb')
  · rw [dc_linBlks]; exact List.mem_cons_of_mem _ (List.mem_cons_of_mem _ (List.mem_cons_of_mem _ hb'))
  · rw [eV, (dc_starts d extra).1, zero_add, mul_div_assoc]
  · rw [eG, (dc_starts d extra).2.1]

omit hb in
/-- **C77 (cost).**  The reported objective is the cost `½ x'Hx + C'x + C0` at the reported point; success or not. -/
theorem C77_cost (hc : 0 < o.costMult) :
    s.f = 1 / 2 * ((fun i : Fin m.var.total => s.x i) ⬝ᵥ (H *ᵥ fun i : Fin m.var.total => s.x i)) + C ⬝ᵥ (fun i : Fin m.var.total => s.x i) + C0 := by
  obtain ⟨q, r, hq, hr, e1, e2, e3, -⟩ := dc_ofSolver hm g hs
  have := C76_objective (qp H C) q o (solve _ _) x0 hc r hr
  have hx : (fun i : Fin m.var.total => s.x i) = r.x := by rw [e3]; funext i; simp [pad]
  rw [e2, this, hx]
  rfl

end

/-! ### C78: prices -/

/-- Coefficients of a generator's output and of a bus angle in the rows of the DC formulation. -/
theorem coef_Pg (d : Case nb ng nl) (extra : List Op) (p : Fin ng) :
    (∀ b : Fin nb, coef (varBlocks (dcOps d ++ extra)) ⟨hcat (Bbus d.branch) d.negCg, vec d.bmis, vec d.bmis, ["Va", "Pg"]⟩ b (nb + p) =
      if (d.gen p).bus = b then -1 else 0) ∧
    (∀ k : Fin d.il.length, coef (varBlocks (dcOps d ++ extra)) ⟨matOf d.BfIl, List.replicate d.il.length ⊥, vec d.upf, ["Va"]⟩ k (nb + p) = 0) ∧
    (∀ k : Fin d.il.length, coef (varBlocks (dcOps d ++ extra)) ⟨matOf (-d.BfIl), List.replicate d.il.length ⊥, vec d.upt, ["Va"]⟩ k (nb + p) = 0) := by
  have z : (fun j : Fin nb => (Pi.single (nb + (p : ℕ)) (1 : ℝ) : ℕ → ℝ) j) = 0 := by
    funext j
    rw [Pi.single_eq_of_ne (by have := j.isLt; omega)]; rfl
  refine ⟨fun b => ?_, fun k => ?_, fun k => ?_⟩
  · unfold coef
    rw [Pmis_row, z, Matrix.mulVec_zero, Pi.zero_apply, zero_sub, Finset.sum_filter, Finset.sum_eq_single p]
    · rw [Pi.single_eq_same]; split_ifs <;> simp
    · intro p' _ hne
      rw [Pi.single_eq_of_ne (fun h => hne (Fin.ext (by omega)))]
      simp
    · intro h; exact absurd (Finset.mem_univ p) h
  · unfold coef
    rw [Pf_row, z, Matrix.mulVec_zero, Pi.zero_apply]
  · unfold coef
    rw [Pt_row, z, Matrix.mulVec_zero, Pi.zero_apply, neg_zero]

theorem coef_Va (d : Case nb ng nl) (extra : List Op) (j : Fin nb) :
    (∀ b : Fin nb, coef (varBlocks (dcOps d ++ extra)) ⟨hcat (Bbus d.branch) d.negCg, vec d.bmis, vec d.bmis, ["Va", "Pg"]⟩ b j = Bbus d.branch b j) ∧
    (∀ k : Fin d.il.length, coef (varBlocks (dcOps d ++ extra)) ⟨matOf d.BfIl, List.replicate d.il.length ⊥, vec d.upf, ["Va"]⟩ k j =
      Bf d.branch (d.il.get k) j) ∧
    (∀ k : Fin d.il.length, coef (varBlocks (dcOps d ++ extra)) ⟨matOf (-d.BfIl), List.replicate d.il.length ⊥, vec d.upt, ["Va"]⟩ k j =
      -Bf d.branch (d.il.get k) j) := by
  have z : (fun i : Fin nb => (Pi.single (j : ℕ) (1 : ℝ) : ℕ → ℝ) i) = Pi.single j 1 := by
    funext i
    by_cases h : i = j
    · subst h; simp
    · rw [Pi.single_eq_of_ne h, Pi.single_eq_of_ne (fun h' => h (Fin.ext h'))]
  refine ⟨fun b => ?_, fun k => ?_, fun k => ?_⟩
  · unfold coef
    rw [Pmis_row, z, Matrix.mulVec_single_one, Finset.sum_eq_zero, sub_zero]
    · rfl
    · intro g _
      exact Pi.single_eq_of_ne (by have := j.isLt; omega) _
  · unfold coef
    rw [Pf_row, z, Matrix.mulVec_single_one]; rfl
  · unfold coef
    rw [Pt_row, z, Matrix.mulVec_single_one]; rfl

/-- The rows of the DC formulation, then the rest. -/
theorem dc_overRows (d : Case nb ng nl) (extra : List Op) (F : ℝ → ℝ → ℝ) (j : ℕ) (y : ℕ → ℝ) :
    overRows F (varBlocks (dcOps d ++ extra)) (linBlocks (dcOps d ++ extra)) (linBlks (dcOps d ++ extra)) j y =
      ∑ b : Fin nb, F (coef (varBlocks (dcOps d ++ extra)) ⟨hcat (Bbus d.branch) d.negCg, vec d.bmis, vec d.bmis, ["Va", "Pg"]⟩ b j) (y b) +
        (∑ k : Fin d.il.length, F (coef (varBlocks (dcOps d ++ extra)) ⟨matOf d.BfIl, List.replicate d.il.length ⊥, vec d.upf, ["Va"]⟩ k j) (y (nb + k)) +
          (∑ k : Fin d.il.length, F (coef (varBlocks (dcOps d ++ extra)) ⟨matOf (-d.BfIl), List.replicate d.il.length ⊥, vec d.upt, ["Va"]⟩ k j)
              (y (nb + d.il.length + k)) +
            overRows F (varBlocks (dcOps d ++ extra)) (linBlocks (dcOps d ++ extra)) (linBlks extra) j y)) := by
  obtain ⟨-, -, -, -, s3, s4, s5⟩ := dc_starts d extra
  unfold overRows
  rw [dc_linBlks, List.map_cons, List.map_cons, List.map_cons, List.sum_cons, List.sum_cons, List.sum_cons, Finset.sum_range, Finset.sum_range,
    Finset.sum_range, s3, s4, s5]
  simp only [zero_add]
  rfl

/-- A sum over the limited branches. -/
theorem sum_il (d : Case nb ng nl) (F : Fin nl → ℕ → ℝ) :
    ∑ k : Fin d.il.length, F (d.il.get k) k = ∑ l, if l ∈ d.il then F l (d.il.idxOf l) else 0 := by
  rw [← Finset.sum_filter]
  refine Finset.sum_bij (fun k _ => d.il.get k) ?_ ?_ ?_ ?_
  · intro k _; simp
  · intro k _ k' _ h; exact List.nodup_iff_injective_get.1 (il_nodup d) h
  · intro l hl
    obtain ⟨k, hk⟩ := List.mem_iff_get.1 (Finset.mem_filter.1 hl).2
    exact ⟨k, Finset.mem_univ _, hk⟩
  · intro k _
    congr 1
    exact (List.get_idxOf (il_nodup d) k).symm

section
variable (d : Case nb ng nl) (extra : List Op) (m : Model) (hm : OpfModel.run (dcOps d ++ extra) = some m) (g : Good (dcOps d ++ extra)) (hb : 0 < d.base)
  (H : Matrix (Fin m.var.total) (Fin m.var.total) ℝ) (C : Fin m.var.total → ℝ) (C0 : ℝ) (o : Opt) (solve : AnySolver) (x0 : Fin m.var.total → ℝ)
  (s : DcRes nb ng nl) (hs : dcopfSolver d m H C C0 o solve x0 = some s) (hc : 0 < o.costMult)

/-- Marginal cost of variable `j` (position in the stacked vector) at the reported point: entry `j` of `H x + C`. -/
noncomputable def marginal {n : ℕ} (H : Matrix (Fin n) (Fin n) ℝ) (C : Fin n → ℝ) (x : ℕ → ℝ) (j : ℕ) : ℝ :=
  pad (H *ᵥ (fun i : Fin n => x i) + C) j

/-- Contribution of the further linear rows to the stationarity condition of variable `j`. -/
noncomputable def extraTerm (d : Case nb ng nl) (extra : List Op) (s : DcRes nb ng nl) (j : ℕ) : ℝ :=
  overRows (fun a y => a * y) (varBlocks (dcOps d ++ extra)) (linBlocks (dcOps d ++ extra)) (linBlks extra) j fun k => s.mu_u k - s.mu_l k

/-- Sum of the absolute coefficients of variable `j` in the further linear rows. -/
noncomputable def extraAbs (d : Case nb ng nl) (extra : List Op) (j : ℕ) : ℝ :=
  overRows (fun a _ => |a|) (varBlocks (dcOps d ++ extra)) (linBlocks (dcOps d ++ extra)) (linBlks extra) j 0

include hm g hb hs hc

/-- **C78 (price of a generator).**  On success the marginal cost of every generator, in money per MW, equals the price `LAM_P` at its bus, less the shadow
price of its upper limit plus that of its lower limit (and the contribution of further constraints on it). -/
theorem C78_generator_price (hok : s.success = true) (p : Fin ng) :
    |marginal H C s.x (nb + p) / d.base - (s.LAM_P (d.gen p).bus - s.MU_PMAX p + s.MU_PMIN p) + extraTerm d extra s (nb + p) / d.base| ≤
      (o.gradtol * (1 + s.dual) + 1 / 10 ^ 5 * (2 * (2 + extraAbs d extra (nb + p)))) / o.costMult / d.base := by
  obtain ⟨q, r, hq, hr, e1, -, e3, e4, e5, eV, eG, eF, eT, eQ, eL, eSf, eSt, ePl, ePu, el, eu⟩ := dc_ofSolver hm g hs
  obtain ⟨q', hq', ht, hA, hv, hl, hqok⟩ := linearOf_spec hm g
  rw [hq] at hq'; cases hq'
  have htot : nb + (p : ℕ) < total (varBlocks (dcOps d ++ extra)) := by
    have := p.isLt
    rw [dc_varBlocks, total_cons, total_cons]; simp only; omega
  have hlt : nb + (p : ℕ) < m.var.total := by rw [ht]; exact htot
  have st := C76_stationary (qp H C) q o (solve _ _) x0 hqok hc r hr (by rw [← e1]; exact hok) ⟨nb + p, hlt⟩
  rw [linearOf_column hm g hq (fun a y => a * y) _ htot fun k => r.mu_u k - r.mu_l k,
    linearOf_column hm g hq (fun a _ => |a|) _ htot 0] at st
  obtain ⟨c1, c2, c3⟩ := coef_Pg d extra p
  rw [dc_overRows, dc_overRows] at st
  simp only [c1, c2, c3, ite_mul, zero_mul, neg_one_mul, Finset.sum_ite_eq, Finset.mem_univ, if_true, Finset.sum_const_zero, zero_add, apply_ite abs,
    abs_zero, abs_neg, abs_one, Finset.univ_eq_empty, Finset.sum_empty, add_zero] at st
  have hx : (fun i : Fin m.var.total => s.x i) = r.x := by rw [e3]; funext i; simp [pad]
  have hm' : marginal H C s.x (nb + p) = (qp H C).df r.x ⟨nb + p, hlt⟩ := by
    unfold marginal pad qp
    rw [hx, dif_pos hlt]
  have hex : extraTerm d extra s (nb + p) =
      overRows (fun a y => a * y) (varBlocks (dcOps d ++ extra)) (linBlocks (dcOps d ++ extra)) (linBlks extra) (nb + p) fun k => r.mu_u k - r.mu_l k := by
    rw [extraTerm, el, eu]
  have key : marginal H C s.x (nb + p) / d.base - (s.LAM_P (d.gen p).bus - s.MU_PMAX p + s.MU_PMIN p) + extraTerm d extra s (nb + p) / d.base =
      ((qp H C).df r.x ⟨nb + p, hlt⟩ + (r.upper (nb + p) - r.lower (nb + p)) + (-(r.mu_u (d.gen p).bus - r.mu_l (d.gen p).bus) + extraTerm d extra s (nb + p))) / d.base := by
    rw [hm', eL, ePl, ePu]
    ring
  rw [key, abs_div, abs_of_pos hb, hex, e5]
  refine div_le_div_of_nonneg_right (st.trans (le_of_eq ?_)) hb.le
  rw [extraAbs]
  ring

/-- **C78 (congestion).**  On success, at every bus `j` that is not an angle reference, the prices at the ends of the branches differ only by the shadow prices
of flow limits: `∑_b LAM_P b · B_bj + ∑_l (MU_SF l − MU_ST l) · Bf_lj` vanishes (up to the marginal cost of the angle, zero unless the user put one, and further constraints). -/
theorem C78_congestion (hok : s.success = true) (j : Fin nb) (hj : d.isRef j = false) :
    |marginal H C s.x j / d.base + ∑ b, s.LAM_P b * Bbus d.branch b j + ∑ l, (s.MU_SF l - s.MU_ST l) * Bf d.branch l j + extraTerm d extra s j / d.base| ≤
      (o.gradtol * (1 + s.dual) + 1 / 10 ^ 5 * (2 * (1 + (∑ b, |Bbus d.branch b j| + 2 * ∑ l with l ∈ d.il, |Bf d.branch l j| + extraAbs d extra j)))) /
        o.costMult / d.base := by
  obtain ⟨q, r, hq, hr, e1, -, e3, e4, e5, eV, eG, eF, eT, eQ, eL, eSf, eSt, ePl, ePu, el, eu⟩ := dc_ofSolver hm g hs
  obtain ⟨q', hq', ht, hA, hv, hl, hqok⟩ := linearOf_spec hm g
  rw [hq] at hq'; cases hq'
  have htot : (j : ℕ) < total (varBlocks (dcOps d ++ extra)) := by
    have := j.isLt
    rw [dc_varBlocks, total_cons, total_cons]; simp only; omega
  have hlt : (j : ℕ) < m.var.total := by rw [ht]; exact htot
  have st := C76_stationary (qp H C) q o (solve _ _) x0 hqok hc r hr (by rw [← e1]; exact hok) ⟨j, hlt⟩
  obtain ⟨ab1, ab2⟩ := C76_absent (qp H C) q o (solve _ _) x0 hqok r hr
  -- no multiplier for the angle itself, none for the missing lower limits of the flow rows
  have hva := hv ("Va", _) (by rw [dc_varVals]; exact List.mem_cons_self) j j.isLt
  rw [(dc_starts d extra).1, zero_add, varLo_val _ _ _ _ j.isLt, varHi_vau _ _ _ _ j.isLt] at hva
  simp only [Fin.eta, hj, Bool.false_eq_true, if_false] at hva
  have z1 := (ab1 j hlt).1 (by rw [hva.1]; exact bot_le)
  have z2 := (ab1 j hlt).2 (by rw [hva.2]; exact le_top)
  have hnA : ∀ k : Fin d.il.length, nb + d.il.length + k < q.nA ∧ nb + k < q.nA := by
    intro k
    rw [hA, dc_linBlocks, total_cons, total_cons, total_cons]
    have := k.isLt
    simp only
    omega
  have zf : ∀ k : Fin d.il.length, r.mu_l (nb + k) = 0 := by
    intro k
    have := (hl ("Pf", _) (by rw [dc_linBlks]; exact List.mem_cons_of_mem _ List.mem_cons_self) k k.isLt).2.1
    rw [linLo_bot, (dc_starts d extra).2.2.2.2.2.1] at this
    exact (ab2 _ (hnA k).2).1 (by rw [this]; exact bot_le)
  have zt : ∀ k : Fin d.il.length, r.mu_l (nb + d.il.length + k) = 0 := by
    intro k
    have := (hl ("Pt", _) (by rw [dc_linBlks]; exact List.mem_cons_of_mem _ (List.mem_cons_of_mem _ List.mem_cons_self)) k k.isLt).2.1
    rw [linLo_bot, (dc_starts d extra).2.2.2.2.2.2] at this
    exact (ab2 _ (hnA k).1).1 (by rw [this]; exact bot_le)
  rw [linearOf_column hm g hq (fun a y => a * y) _ htot fun k => r.mu_u k - r.mu_l k,
    linearOf_column hm g hq (fun a _ => |a|) _ htot 0] at st
  obtain ⟨c1, c2, c3⟩ := coef_Va d extra j
  rw [dc_overRows, dc_overRows] at st
  simp only [c1, c2, c3, zf, zt, sub_zero, z1, z2, abs_neg, Finset.univ_eq_empty, Finset.sum_empty, add_zero, zero_add] at st
  have hsf := sum_il d fun l k => Bf d.branch l j * r.mu_u (nb + k)
  have hst := sum_il d fun l k => -Bf d.branch l j * r.mu_u (nb + d.il.length + k)
  have hab := sum_il d fun l _ => |Bf d.branch l j|
  beta_reduce at hsf hst hab
  rw [hsf, hst, hab, ← Finset.sum_filter (fun l => l ∈ d.il) fun l => |Bf d.branch l j|] at st
  have hx : (fun i : Fin m.var.total => s.x i) = r.x := by rw [e3]; funext i; simp [pad]
  have hm' : marginal H C s.x j = (qp H C).df r.x ⟨j, hlt⟩ := by
    unfold marginal pad qp
    rw [hx, dif_pos hlt]
  have hex : extraTerm d extra s j =
      overRows (fun a y => a * y) (varBlocks (dcOps d ++ extra)) (linBlocks (dcOps d ++ extra)) (linBlks extra) j fun k => r.mu_u k - r.mu_l k := by
    rw [extraTerm, el, eu]
  have k1 : ∑ b, s.LAM_P b * Bbus d.branch b j = (∑ b : Fin nb, Bbus d.branch b j * (r.mu_u b - r.mu_l b)) / d.base := by
    rw [div_eq_mul_inv, Finset.sum_mul]
    exact Finset.sum_congr rfl fun b _ => by rw [eL]; ring
  have k2 : ∑ l, (s.MU_SF l - s.MU_ST l) * Bf d.branch l j =
      (∑ l, (if l ∈ d.il then Bf d.branch l j * r.mu_u (nb + d.il.idxOf l) else 0)) / d.base +
        (∑ l, (if l ∈ d.il then -Bf d.branch l j * r.mu_u (nb + d.il.length + d.il.idxOf l) else 0)) / d.base := by
    rw [← add_div, ← Finset.sum_add_distrib, div_eq_mul_inv, Finset.sum_mul]
    refine Finset.sum_congr rfl fun l _ => ?_
    rw [eSf, eSt]
    unfold atIl
    split_ifs <;> ring
  have key : marginal H C s.x j / d.base + ∑ b, s.LAM_P b * Bbus d.branch b j + ∑ l, (s.MU_SF l - s.MU_ST l) * Bf d.branch l j + extraTerm d extra s j / d.base =
      ((qp H C).df r.x ⟨j, hlt⟩ + (∑ b : Fin nb, Bbus d.branch b j * (r.mu_u b - r.mu_l b) +
        (∑ l, (if l ∈ d.il then Bf d.branch l j * r.mu_u (nb + d.il.idxOf l) else 0) +
          (∑ l, (if l ∈ d.il then -Bf d.branch l j * r.mu_u (nb + d.il.length + d.il.idxOf l) else 0) + extraTerm d extra s j)))) / d.base := by
    rw [hm', k1, k2]
    ring
  rw [key, abs_div, abs_of_pos hb, hex, e5]
  refine div_le_div_of_nonneg_right (st.trans (le_of_eq ?_)) hb.le
  rw [extraAbs]
  ring

/-- **C78 (signs).**  The reported shadow prices of generation limits and flow limits are never negative, and those of branches without a limit are zero;
success or not. -/
theorem C78_signs :
    (∀ p, 0 ≤ s.MU_PMIN p ∧ 0 ≤ s.MU_PMAX p) ∧ (∀ l, 0 ≤ s.MU_SF l ∧ 0 ≤ s.MU_ST l) ∧
    (∀ l, d.rateA l = 0 ∨ 10 ^ 10 ≤ d.rateA l → s.MU_SF l = 0 ∧ s.MU_ST l = 0) := by
  obtain ⟨q, r, hq, hr, e1, -, e3, e4, e5, eV, eG, eF, eT, eQ, eL, eSf, eSt, ePl, ePu, el, eu⟩ := dc_ofSolver hm g hs
  obtain ⟨q', hq', ht, hA, hv, hl, hqok⟩ := linearOf_spec hm g
  rw [hq] at hq'; cases hq'
  obtain ⟨-, sg⟩ := C76_signs (qp H C) q o (solve _ _) x0 hqok hc r hr
  refine ⟨fun p => ⟨?_, ?_⟩, fun l => ⟨?_, ?_⟩, fun l h => ?_⟩
  · rw [ePl]; exact div_nonneg (sg _).1 hb.le
  · rw [ePu]; exact div_nonneg (sg _).2.1 hb.le
  · rw [eSf]; unfold atIl; split_ifs
    · exact div_nonneg (sg _).2.2.2 hb.le
    · exact le_rfl
  · rw [eSt]; unfold atIl; split_ifs
    · exact div_nonneg (sg _).2.2.2 hb.le
    · exact le_rfl
  · have hn : l ∉ d.il := by
      rw [mem_il]
      rintro ⟨h1, h2⟩
      rcases h with h | h
      · exact h1 h
      · exact absurd h2 (not_lt.2 h)
    rw [eSf, eSt]
    simp [atIl, hn]

end

/-! ### Non-vacuity -/

theorem dc_runs (d : Case nb ng nl) : ∃ m, OpfModel.run (dcOps d) = some m := by
  simp only [OpfModel.run, dcOps, List.foldlM_cons, List.foldlM_nil, step, Model.addLin, storeVs, Model.resolve, Model.addVars,
    Idx.add, Model.init, Idx.empty]
  simp [Model.width, Dict.set]

/-- **C77 (completes).**  For a well-posed case the model can be built and `dcopf_solver` returns tables, whatever the objective, options, starting point and
linear solver. -/
theorem C77_completes (d : Case nb ng nl) (h : d.DcOK) : ∃ m, OpfModel.run (dcOps d) = some m ∧ Good (dcOps d) ∧
    ∀ (H : Matrix (Fin m.var.total) (Fin m.var.total) ℝ) (C : Fin m.var.total → ℝ) (C0 : ℝ) (o : Opt) (solve : AnySolver) (x0 : Fin m.var.total → ℝ),
      ∃ s, dcopfSolver d m H C C0 o solve x0 = some s := by
  obtain ⟨m, hm⟩ := dc_runs d
  refine ⟨m, hm, h.good, fun H C C0 o solve x0 => ?_⟩
  have hm' : OpfModel.run (dcOps d ++ []) = some m := by rw [List.append_nil]; exact hm
  have g' : Good (dcOps d ++ []) := by rw [List.append_nil]; exact h.good
  obtain ⟨q, hq, -, -, -, -, hok⟩ := linearOf_spec hm h.good
  obtain ⟨r, hr⟩ := C76_returns (qp H C) q o (solve _ _) x0 hok
  obtain ⟨i1, i2, i3, i4, i5⟩ := dc_idx hm' g'
  unfold dcopfSolver
  simp only [hq, hr, i1, i2, i3, i4, i5, Option.bind_eq_bind, Option.bind_some]
  exact ⟨_, rfl⟩

/-- Two buses, a generator at the first, 50 MW of demand at the second, a line limited to 60 MW. -/
noncomputable def exCase : Case 2 1 1 where
  base := 100
  bus := fun b => if b = 0 then ⟨0, 0, 0, 0⟩ else ⟨50, 0, 0, 0⟩
  isRef := fun b => b = 0
  va := fun _ => 0
  vm := fun _ => 1
  vmin := fun _ => 0.9
  vmax := fun _ => 1.1
  gen := fun _ => ⟨0, 50, 0, 1⟩
  pmin := fun _ => 10
  pmax := fun _ => 200
  qmin := fun _ => -50
  qmax := fun _ => 50
  branch := fun _ => ⟨0, 1, 0.01, 0.1, 0, 0, 0, 1⟩
  rateA := fun _ => 60

theorem exCase_ok : exCase.DcOK where
  base := by norm_num [exCase]
  stat := fun _ => rfl
  order := fun _ => by norm_num [exCase]
  fin := fun _ => by norm_num [exCase, Finite]
  va := fun _ => by norm_num [exCase, Finite, Case.vaRad]
  dem := fun b => by
    have z : Pfinj exCase.branch = 0 := by funext l; simp [Pfinj, exCase]
    unfold Case.bmis Pbusinj
    rw [z, Matrix.mulVec_zero]
    unfold exCase Finite
    by_cases h : b = 0
    · simp [h]
    · simp [h]; norm_num

/-- A successful run on the example, its branch being limited and its first bus the reference. -/
example : ∃ (m : Model) (o : Opt) (s : DcRes 2 1 1), OpfModel.run (dcOps exCase ++ []) = some m ∧ Good (dcOps exCase ++ []) ∧ 0 < exCase.base ∧
    0 < o.costMult ∧ dcopfSolver exCase m 0 1 0 o (fun _ _ _ _ => none) 0 = some s ∧ s.success = true ∧
    (exCase.rateA 0 ≠ 0 ∧ exCase.rateA 0 < 10 ^ 10) ∧ exCase.rateA 0 / exCase.base + |Pfinj exCase.branch 0| < 10 ^ 10 ∧
    exCase.isRef 0 = true ∧ exCase.isRef 1 = false := by
  obtain ⟨m, hm, hg, hall⟩ := C77_completes exCase exCase_ok
  obtain ⟨q, hq, -, -, -, -, hok⟩ := linearOf_spec hm hg
  obtain ⟨o, h1, -, h2⟩ := exists_success (problem (qp (n := m.var.total) 0 1) q) 0
  obtain ⟨s, hs⟩ := hall 0 1 0 o (fun _ _ _ _ => none) 0
  have hm' : OpfModel.run (dcOps exCase ++ []) = some m := by rw [List.append_nil]; exact hm
  have g' : Good (dcOps exCase ++ []) := by rw [List.append_nil]; exact hg
  obtain ⟨q', r, hq', hr, e1, -⟩ := dc_ofSolver hm' g' hs
  rw [hq] at hq'; cases hq'
  refine ⟨m, o, s, hm', g', exCase_ok.base, h1, hs, ?_, ?_, ?_, rfl, rfl⟩
  · rw [e1, (ofFull hr).2.1]; exact h2 _
  · norm_num [exCase]
  · simp [Pfinj, exCase]; norm_num

end Verif.Opf
