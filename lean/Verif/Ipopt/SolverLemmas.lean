import Verif.Ipopt.SolverModel
import Verif.Ipopt.Props

/-! # Lemmas: the answer of IPOPT behind the tables -/

open Matrix ComplexConjugate

namespace Verif.Ipopt

open Verif.Opf Verif.Network Verif.OpfNl Verif.OpfCost Verif.Pips Verif.OpfModel

noncomputable section

variable {nb ng nl : ℕ}

theorem ip_ofSolver {d : Case nb ng nl} {extra : List Op} {m : Model} (hm : OpfModel.run (acOps d ++ extra) = some m)
    (g : Good (acOps d ++ extra)) (hn : (names (nlnBlocks (acOps d ++ extra))).Nodup) (hb : d.base ≠ 0) {lim : Int} {c : AcData} {ipopt : AnyIpopt}
    {x0 : ℕ → ℝ} {s : AcRes nb ng nl} (hs : ipoptSolver d lim c m ipopt x0 = some s) :
    Evaluable (acNl d lim c) ∧ ∃ q r, linearOf m = some q ∧ r = ipopt _ (nlp d lim c m.var.total q) x0 ∧
      (s.success = true ↔ r.status = 0 ∨ r.status = 1) ∧ (acNl d lim c).cost.f s.x = some s.f ∧ s.x = r.x ∧ s.muVarL = r.zl ∧ s.muVarU = r.zu ∧
      (∀ k < q.nA, s.mu_u k - s.mu_l k = r.lmbda (2 * nb + (2 * d.il.length + k)) ∧ 0 ≤ s.mu_u k ∧ 0 ≤ s.mu_l k) ∧
      (∀ b : Fin nb, s.LAM_P b = r.lmbda b / d.base ∧ s.LAM_Q b = r.lmbda (nb + b) / d.base) ∧
      (∀ k : Fin d.il.length, s.MU_SF (d.il.get k) = 2 * r.lmbda (2 * nb + k) * d.rateA (d.il.get k) / d.base / d.base ∧
        s.MU_ST (d.il.get k) = 2 * r.lmbda (2 * nb + d.il.length + k) * d.rateA (d.il.get k) / d.base / d.base) ∧
      (∀ l, l ∉ d.il → s.MU_SF l = 0 ∧ s.MU_ST l = 0) ∧
      (∀ b : Fin nb, s.VA b = s.x b * 180 / Real.pi ∧ s.VM b = s.x (nb + b)) ∧
      (∀ p : Fin ng, s.PG p = s.x (2 * nb + p) * d.base ∧ s.QG p = s.x (2 * nb + ng + p) * d.base ∧ s.VG p = s.VM (d.gen p).bus) ∧
      (∀ l, (⟨s.PF l, s.QF l⟩ : ℂ) = (acNl d lim c).V s.x (d.branch l).f * conj ((Network.Yf d.branch *ᵥ (acNl d lim c).V s.x) l) * d.base ∧
        (⟨s.PT l, s.QT l⟩ : ℂ) = (acNl d lim c).V s.x (d.branch l).t * conj ((Network.Yt d.branch *ᵥ (acNl d lim c).V s.x) l) * d.base) ∧
      (∀ b : Fin nb, s.MU_VMAX b = s.muVarU (nb + b) ∧ s.MU_VMIN b = s.muVarL (nb + b)) ∧
      (∀ p : Fin ng, s.MU_PMAX p = s.muVarU (2 * nb + p) / d.base ∧ s.MU_PMIN p = s.muVarL (2 * nb + p) / d.base) ∧
      (∀ p : Fin ng, s.MU_QMAX p = s.muVarU (2 * nb + ng + p) / d.base ∧ s.MU_QMIN p = s.muVarL (2 * nb + ng + p) / d.base) ∧
      (∀ k, s.muNlnL k = if k < 2 * nb ∧ r.lmbda k < 0 then -r.lmbda k else 0) ∧
      (∀ k, s.muNlnU k = if k < 2 * nb then (if r.lmbda k > 0 then r.lmbda k else 0) else
        if k < 2 * nb + nl then pad (fun l => s.MU_SF l * d.base) (k - 2 * nb) else pad (fun l => s.MU_ST l * d.base) (k - 2 * nb - nl)) := by
  obtain ⟨i1, i2, i3, i4, i5, i6⟩ := ac_idx hm g hn
  unfold ipoptSolver at hs
  simp only [i1, i2, i3, i4, i5, i6, Option.bind_eq_bind, Option.bind_some] at hs
  obtain ⟨q, hq, hs⟩ := Option.bind_eq_some_iff.1 hs
  obtain ⟨-, -, hs⟩ := Option.bind_eq_some_iff.1 hs
  by_cases hE : Evaluable (userdata d lim c)
  swap
  · rw [if_pos hE] at hs; cases hs
  rw [if_neg (not_not.2 hE)] at hs
  obtain ⟨fv, hf, hs⟩ := Option.bind_eq_some_iff.1 hs
  rw [Option.some.injEq] at hs
  refine ⟨hE, q, _, hq, rfl, ?_⟩
  subst hs
  set r := ipopt _ (nlp d lim c m.var.total q) x0 with hr
  have cre : ∀ (z : ℂ) (t : ℝ), (⟨z.re * t, z.im * t⟩ : ℂ) = z * t := by
    intro z t; apply Complex.ext <;> simp
  have eV : (fun b : Fin nb => ((r.x (nb + b) : ℝ) : ℂ) * Complex.exp (Complex.I * ((r.x (0 + b) : ℝ) : ℂ))) = (acNl d lim c).V r.x := rfl
  refine ⟨by simp, hf, rfl, rfl, rfl, ?_, ?_, ?_, ?_, ?_, ?_, ?_, ?_, ?_, ?_, fun _ => rfl, ?_⟩
  · intro k hk
    simp only [hk, true_and, show 2 * nb + (2 * d.il.length + k) = 2 * nb + 2 * d.il.length + k by omega]
    set v := r.lmbda (2 * nb + 2 * d.il.length + k)
    rcases lt_trichotomy v 0 with h | h | h
    · rw [if_neg (not_lt.2 h.le), if_pos h]; exact ⟨by ring, le_rfl, by linarith⟩
    · rw [h]; simp
    · rw [if_pos h, if_neg (not_lt.2 h.le)]; exact ⟨by ring, h.le, le_rfl⟩
  · intro b
    simp only [zero_add]
    exact ⟨trivial, trivial⟩
  · intro k
    have e : d.il.idxOf (d.il.get k) = k := List.get_idxOf (il_nodup d) k
    simp only [e, if_pos (List.get_mem d.il k)]
    exact ⟨trivial, trivial⟩
  · intro l hl
    simp [hl]
  · intro b; simp
  · intro p; exact ⟨rfl, rfl, rfl⟩
  · intro l
    simp only [eV]
    exact ⟨cre _ _, cre _ _⟩
  · intro b; exact ⟨rfl, rfl⟩
  · intro p; exact ⟨rfl, rfl⟩
  · intro p; exact ⟨rfl, rfl⟩
  · intro k
    have hc : ∀ a : ℝ, a / d.base * d.base = a := fun a => div_mul_cancel₀ a hb
    simp only [hc]

theorem il_ne {d : Case nb ng nl} {lim : Int} {c : AcData} (hE : Evaluable (acNl d lim c)) : ∃ l, d.rateA l ≠ 0 ∧ d.rateA l < 10 ^ 10 := by
  by_contra h
  push Not at h
  have h0 : ∀ l, d.rateA l = 0 ∨ 10 ^ 10 ≤ d.rateA l := fun l => by
    by_cases hl : d.rateA l = 0
    · exact .inl hl
    · exact .inr (h l hl)
  have := hE.2 0 0 0 0 0 0
  have hil := (il_length d).2 h0
  unfold Nl.hess at this
  cases hd : d2f (acNl d lim c).cost 0 with
  | none => rw [hd] at this; cases this
  | some v => rw [hd] at this; simp only [Option.bind_eq_bind, Option.bind_some, if_pos hil] at this; cases this

theorem obeys_upper {lo : EReal} {u v ε : ℝ} (h : Obeys lo (u : EReal) v ε) (hu : u < 10 ^ 19) : v ≤ u + ε := by
  have := h.2 (EReal.coe_lt_coe_iff.2 hu)
  rw [EReal.coe_le_coe_iff] at this
  linarith
theorem obeys_lower {hi : EReal} {l v ε : ℝ} (h : Obeys (l : EReal) hi v ε) (hl : -10 ^ 19 < l) : l - ε ≤ v := by
  have := h.1 (EReal.coe_lt_coe_iff.2 hl)
  rw [EReal.coe_le_coe_iff] at this
  linarith

/-- A feasible point, constraint by constraint and block by block. -/
theorem feasible_blocks {d : Case nb ng nl} {extra : List Op} {m : Model} (hm : OpfModel.run (acOps d ++ extra) = some m) (g : Good (acOps d ++ extra))
    {lim : Int} {c : AcData} (hb : d.base ≠ 0) (hl : ∃ l, d.rateA l ≠ 0 ∧ d.rateA l < 10 ^ 10) {q : Linear} (hq : linearOf m = some q) {o : Out} {ε : ℝ}
    (hf : o.Feasible (nlp d lim c m.var.total q) ε) :
    (∀ b, |(leaving d o.x b).re| ≤ ε ∧ |(leaving d o.x b).im| ≤ ε) ∧
    (∀ i, limitedF d lim o.x (d.il.get i) ^ 2 - (d.rateA (d.il.get i) / d.base) ^ 2 ≤ ε ∧ limitedT d lim o.x (d.il.get i) ^ 2 - (d.rateA (d.il.get i) / d.base) ^ 2 ≤ ε) ∧
    (∀ b ∈ varVals (acOps d ++ extra), ∀ i < b.2.n, Obeys (VarVals.lo b.2 i) (VarVals.hi b.2 i) (o.x (start (varBlocks (acOps d ++ extra)) b.1 + i)) ε) ∧
    (∀ b ∈ linBlks (acOps d ++ extra), ∀ i < b.2.A.rows, Obeys (LinBlk.lo b.2 i) (LinBlk.hi b.2 i)
      (rowDot b.2.A i (subvec (varBlocks (acOps d ++ extra)) o.x (eff (varBlocks (acOps d ++ extra)) b.2.vs))) ε) := by
  obtain ⟨q', hq', ht, hA, hv, hlin, hok⟩ := linearOf_spec hm g
  rw [hq] at hq'; cases hq'
  obtain ⟨G, hG, h1, h2, h3⟩ := C104_values d lim c m.var.total (fun (r : Fin q.nA) j => q.A r j) hb hl o.x
  have hr := hf.1 G hG
  refine ⟨fun b => ?_, fun i => ?_, fun b hb' i hi => ?_, fun b hb' i hi => ?_⟩
  · have a1 := hr (.inl (.inl b))
    have a2 := hr (.inl (.inr b))
    have e1 : (nlp d lim c m.var.total q).pos (.inl (.inl b)) = b := rfl
    have e2 : (nlp d lim c m.var.total q).pos (.inl (.inr b)) = nb + b := rfl
    have hb2 := b.isLt
    have z : ∀ k, k < 2 * nb → (nlp d lim c m.var.total q).gl k = ((0 : ℝ) : EReal) ∧ (nlp d lim c m.var.total q).gu k = ((0 : ℝ) : EReal) := fun k hk =>
      ⟨if_pos hk, if_pos hk⟩
    rw [e1, (z _ (by omega)).1, (z _ (by omega)).2, (h1 b).1] at a1
    rw [e2, (z _ (by omega)).1, (z _ (by omega)).2, (h1 b).2] at a2
    have b1 := obeys_upper a1 (by norm_num)
    have b2 := obeys_lower a1 (by norm_num)
    have b3 := obeys_upper a2 (by norm_num)
    have b4 := obeys_lower a2 (by norm_num)
    rw [abs_le, abs_le]
    exact ⟨⟨by linarith, by linarith⟩, by linarith, by linarith⟩
  · have a1 := hr (.inr (.inl (.inl i)))
    have a2 := hr (.inr (.inl (.inr i)))
    have e1 : (nlp d lim c m.var.total q).pos (.inr (.inl (.inl i))) = 2 * nb + i := rfl
    have e2 : (nlp d lim c m.var.total q).pos (.inr (.inl (.inr i))) = 2 * nb + d.il.length + i := rfl
    have hi := i.isLt
    have z : ∀ k, 2 * nb ≤ k → k < 2 * nb + 2 * d.il.length → (nlp d lim c m.var.total q).gu k = ((0 : ℝ) : EReal) := fun k hk hk' =>
      (if_neg (by omega)).trans (if_pos (by omega))
    rw [e1, z _ (by omega) (by omega), (h2 i).1] at a1
    rw [e2, z _ (by omega) (by omega), (h2 i).2] at a2
    have b1 := obeys_upper a1 (by norm_num)
    have b3 := obeys_upper a2 (by norm_num)
    exact ⟨by linarith, by linarith⟩
  · have hlt : start (varBlocks (acOps d ++ extra)) b.1 + i < m.var.total := by
      rw [ht]
      exact start_lt _ g.varNames (b.1, b.2.n) (by rw [← varVals_blocks]; exact List.mem_map.2 ⟨b, hb', rfl⟩) i hi
    have := hf.2 _ hlt
    obtain ⟨e1, e2⟩ := hv b hb' i hi
    change Obeys (q.xmin _) (q.xmax _) _ _ at this
    rwa [e1, e2] at this
  · have hlt : start (linBlocks (acOps d ++ extra)) b.1 + i < q.nA := by
      rw [hA]
      exact start_lt (linBlocks _) (by rw [linBlocks_names]; exact g.linNames) (b.1, b.2.A.rows) (List.mem_map.2 ⟨b, hb', rfl⟩) i hi
    obtain ⟨e0, e1, e2⟩ := hlin b hb' i hi
    have := hr (.inr (.inr ⟨_, hlt⟩))
    rw [h3] at this
    have ep : (nlp d lim c m.var.total q).pos (.inr (.inr ⟨_, hlt⟩)) = 2 * nb + (2 * d.il.length + (start (linBlocks (acOps d ++ extra)) b.1 + i)) := rfl
    have el : (nlp d lim c m.var.total q).gl (2 * nb + (2 * d.il.length + (start (linBlocks (acOps d ++ extra)) b.1 + i))) =
        q.l (start (linBlocks (acOps d ++ extra)) b.1 + i) :=
      (if_neg (by omega)).trans ((if_neg (by omega)).trans (congrArg q.l (by omega)))
    have eu : (nlp d lim c m.var.total q).gu (2 * nb + (2 * d.il.length + (start (linBlocks (acOps d ++ extra)) b.1 + i))) =
        q.u (start (linBlocks (acOps d ++ extra)) b.1 + i) :=
      (if_neg (by omega)).trans ((if_neg (by omega)).trans (congrArg q.u (by omega)))
    rw [ep, el, eu, e1, e2] at this
    simp only [ht] at this
    rwa [e0] at this

end

end Verif.Ipopt
