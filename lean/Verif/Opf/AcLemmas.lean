import Verif.Opf.AcModel
import Verif.Opf.DcLemmas
import Verif.OpfNl.Props
import Verif.OpfCost.AcProps

/-! # Lemmas: positions of the blocks of the AC formulation, the solver's raw result -/

open Matrix ComplexConjugate

namespace Verif.Opf

open Verif.OpfModel Verif.Pips Verif.Network Verif.OpfNl Verif.OpfCost

variable {nb ng nl : ℕ}

section blocks
variable (d : Case nb ng nl) (extra : List Op)

theorem ac_varBlocks : varBlocks (acOps d ++ extra) = ("Va", nb) :: ("Vm", nb) :: ("Pg", ng) :: ("Qg", ng) :: varBlocks extra := by
  simp [acOps, varBlocks]

theorem ac_linBlks : linBlks (acOps d ++ extra) = linBlks extra := by simp [acOps, linBlks]

theorem ac_linBlocks : linBlocks (acOps d ++ extra) = linBlocks extra := by simp [linBlocks, ac_linBlks]

theorem ac_nlnBlocks : nlnBlocks (acOps d ++ extra) = ("Pmis", nb) :: ("Qmis", nb) :: ("Sf", nl) :: ("St", nl) :: nlnBlocks extra := by
  simp [acOps, nlnBlocks]

theorem ac_varVals : varVals (acOps d ++ extra) =
    ("Va", ⟨nb, some (vec d.vaRad), some d.val, some d.vau⟩) :: ("Vm", ⟨nb, some (vec d.vm), some (vec d.vmin), some (vec d.vmax)⟩) ::
      ("Pg", ⟨ng, some (vec fun g => (d.gen g).PG / d.base), some (vec fun g => d.pmin g / d.base), some (vec fun g => d.pmax g / d.base)⟩) ::
      ("Qg", ⟨ng, some (vec fun g => (d.gen g).QG / d.base), some (vec fun g => d.qmin g / d.base), some (vec fun g => d.qmax g / d.base)⟩) ::
        varVals extra := by
  simp [acOps, varVals]

theorem ac_starts : start (varBlocks (acOps d ++ extra)) "Va" = 0 ∧ start (varBlocks (acOps d ++ extra)) "Vm" = nb ∧
    start (varBlocks (acOps d ++ extra)) "Pg" = 2 * nb ∧ start (varBlocks (acOps d ++ extra)) "Qg" = 2 * nb + ng ∧
    start (nlnBlocks (acOps d ++ extra)) "Pmis" = 0 ∧ start (nlnBlocks (acOps d ++ extra)) "Qmis" = nb := by
  rw [ac_varBlocks, ac_nlnBlocks]
  simp [start, total]
  omega

end blocks

theorem ac_idx {d : Case nb ng nl} {extra : List Op} {m : Model} (hm : OpfModel.run (acOps d ++ extra) = some m)
    (g : Good (acOps d ++ extra)) (hn : (names (nlnBlocks (acOps d ++ extra))).Nodup) :
    m.var.i1 "Va" = some 0 ∧ m.var.i1 "Vm" = some nb ∧ m.var.i1 "Pg" = some (2 * nb) ∧ m.var.i1 "Qg" = some (2 * nb + ng) ∧
      m.nln.i1 "Pmis" = some 0 ∧ m.nln.i1 "Qmis" = some nb := by
  have r := Rep.run hm
  obtain ⟨s1, s2, s3, s4, s5, s6⟩ := ac_starts d extra
  have hl := (foldIdx_lookup (nlnBlocks (acOps d ++ extra)) hn).1
  have hv := (foldIdx_lookup (varBlocks (acOps d ++ extra)) g.varNames).1
  refine ⟨?_, ?_, ?_, ?_, ?_, ?_⟩
  · rw [r.var, (hv "Va" (by rw [ac_varBlocks]; simp [names])).1, s1]
  · rw [r.var, (hv "Vm" (by rw [ac_varBlocks]; simp [names])).1, s2]
  · rw [r.var, (hv "Pg" (by rw [ac_varBlocks]; simp [names])).1, s3]
  · rw [r.var, (hv "Qg" (by rw [ac_varBlocks]; simp [names])).1, s4]
  · rw [r.nln, (hl "Pmis" (by rw [ac_nlnBlocks]; simp [names])).1, s5]
  · rw [r.nln, (hl "Qmis" (by rw [ac_nlnBlocks]; simp [names])).1, s6]

/-- The callbacks' data once the positions are known. -/
noncomputable abbrev acNl (d : Case nb ng nl) (lim : Int) (c : AcData) : Nl nb ng d.il.length := nlOf d lim c 0 nb (2 * nb) (2 * nb + ng)

theorem acNl_layout (d : Case nb ng nl) (lim : Int) (c : AcData) : Layout (acNl d lim c) := ⟨rfl, rfl, rfl, rfl, rfl⟩

theorem pad_fin {n : ℕ} (v : Fin n → ℝ) (i : Fin n) : pad v i = v i := by simp [pad]

theorem flat_inl {n : ℕ} (v : Fin n ⊕ Fin n → ℝ) (i : Fin n) : flat v i = v (.inl i) := by
  unfold flat; rw [if_pos i.isLt, pad_fin]

theorem flat_inr {n : ℕ} (v : Fin n ⊕ Fin n → ℝ) (i : Fin n) : flat v (n + i) = v (.inr i) := by
  unfold flat
  rw [if_neg (by omega), show n + (i : ℕ) - n = i by omega, pad_fin]

/-- The solver's raw result behind the tables. -/
theorem ac_ofSolver {d : Case nb ng nl} {extra : List Op} {m : Model} (hm : OpfModel.run (acOps d ++ extra) = some m)
    (g : Good (acOps d ++ extra)) (hn : (names (nlnBlocks (acOps d ++ extra))).Nodup) (hb : d.base ≠ 0) {lim : Int} {c : AcData} {o : Opt} {solve : AnySolver}
    {x0 : Fin m.var.total → ℝ} {s : AcRes nb ng nl} (hs : pipsopfSolver d lim c m o solve x0 = some s) :
    Evaluable (acNl d lim c) ∧ ∃ q r, linearOf m = some q ∧ pipsFull (callbacks (acNl d lim c) m.var.total) q o (solve _ _) x0 = some r ∧
      s.success = r.eflag ∧ s.f = r.f ∧ s.x = pad r.x ∧ s.tol = r.tol o ∧ s.dual = r.dual ∧
      s.muVarL = r.lower ∧ s.muVarU = r.upper ∧ s.mu_l = r.mu_l ∧ s.mu_u = r.mu_u ∧
      (∀ b : Fin nb, s.LAM_P b = r.eqnonlin (.inl b) / d.base ∧ s.LAM_Q b = r.eqnonlin (.inr b) / d.base) ∧
      (∀ k, s.MU_SF (d.il.get k) = 2 * r.ineqnonlin (.inl k) * d.rateA (d.il.get k) / d.base / d.base ∧
        s.MU_ST (d.il.get k) = 2 * r.ineqnonlin (.inr k) * d.rateA (d.il.get k) / d.base / d.base) ∧
      (∀ l, l ∉ d.il → s.MU_SF l = 0 ∧ s.MU_ST l = 0) ∧
      (∀ b : Fin nb, s.VA b = s.x b * 180 / Real.pi ∧ s.VM b = s.x (nb + b)) ∧
      (∀ p : Fin ng, s.PG p = s.x (2 * nb + p) * d.base ∧ s.QG p = s.x (2 * nb + ng + p) * d.base ∧ s.VG p = s.VM (d.gen p).bus) ∧
      (∀ l, (⟨s.PF l, s.QF l⟩ : ℂ) = (acNl d lim c).V s.x (d.branch l).f * conj ((Network.Yf d.branch *ᵥ (acNl d lim c).V s.x) l) * d.base ∧
        (⟨s.PT l, s.QT l⟩ : ℂ) = (acNl d lim c).V s.x (d.branch l).t * conj ((Network.Yt d.branch *ᵥ (acNl d lim c).V s.x) l) * d.base) ∧
      (∀ b : Fin nb, s.MU_VMAX b = s.muVarU (nb + b) ∧ s.MU_VMIN b = s.muVarL (nb + b)) ∧
      (∀ p : Fin ng, s.MU_PMAX p = s.muVarU (2 * nb + p) / d.base ∧ s.MU_PMIN p = s.muVarL (2 * nb + p) / d.base) ∧
      (∀ p : Fin ng, s.MU_QMAX p = s.muVarU (2 * nb + ng + p) / d.base ∧ s.MU_QMIN p = s.muVarL (2 * nb + ng + p) / d.base) ∧
      (∀ k, s.muNlnL k = if flat r.eqnonlin k < 0 then -flat r.eqnonlin k else 0) ∧
      (∀ k, s.muNlnU k = if flat r.eqnonlin k > 0 then flat r.eqnonlin k else if k < 2 * nb then 0 else
        if k < 2 * nb + nl then pad (fun l => s.MU_SF l * d.base) (k - 2 * nb) else pad (fun l => s.MU_ST l * d.base) (k - 2 * nb - nl)) := by
  obtain ⟨i1, i2, i3, i4, i5, i6⟩ := ac_idx hm g hn
  unfold pipsopfSolver at hs
  simp only [i1, i2, i3, i4, i5, i6, Option.bind_eq_bind, Option.bind_some] at hs
  obtain ⟨q, hq, hs⟩ := Option.bind_eq_some_iff.1 hs
  by_cases hE : Evaluable (acNl d lim c)
  swap
  · rw [if_pos hE] at hs; cases hs
  rw [if_neg (not_not.2 hE)] at hs
  obtain ⟨r, hr, hs⟩ := Option.bind_eq_some_iff.1 hs
  rw [Option.some.injEq] at hs
  refine ⟨hE, q, r, hq, hr, ?_⟩
  subst hs
  have cre : ∀ (z : ℂ) (t : ℝ), (⟨z.re * t, z.im * t⟩ : ℂ) = z * t := by
    intro z t; apply Complex.ext <;> simp
  have eV : (fun b : Fin nb => ((pad r.x (nb + b) : ℝ) : ℂ) * Complex.exp (Complex.I * ((pad r.x (0 + b) : ℝ) : ℂ))) = (acNl d lim c).V (pad r.x) := rfl
  refine ⟨rfl, rfl, rfl, rfl, rfl, rfl, rfl, rfl, rfl, ?_, ?_, ?_, ?_, ?_, ?_, ?_, ?_, ?_, fun _ => rfl, ?_⟩
  · intro b
    simp only [zero_add]
    rw [flat_inl, flat_inr]
    exact ⟨rfl, rfl⟩
  · intro k
    have e : d.il.idxOf (d.il.get k) = k := List.get_idxOf (il_nodup d) k
    simp only [e, if_pos (List.get_mem d.il k), flat_inl, flat_inr]
    exact ⟨trivial, trivial⟩
  · intro l hl
    simp [hl]
  · intro b; simp
  · intro p; exact ⟨rfl, rfl, rfl⟩
  · intro l
    simp only [eV]
    exact ⟨cre _ _, cre _ _⟩
  · intro b; exact ⟨rfl, rfl⟩
  · intro p; exact ⟨rfl, rfl⟩
  · intro p; exact ⟨rfl, rfl⟩
  · intro k
    have hc : ∀ a : ℝ, a / d.base * d.base = a := fun a => div_mul_cancel₀ a hb
    simp only [hc]

end Verif.Opf
