import Verif.Opf.ExecPack

/-! # C111: the named results of an optimal power flow, and the choice of the AC algorithm -/

open Matrix

namespace Verif.Opf

open Verif.OpfModel Verif.Pips Verif.Network Verif.OpfNl Verif.OpfCost

variable {nb ng nl : ℕ}

/-! ### Lemmas -/

/-- What a run of the solver leaves under the names. -/
theorem values_ok {E I : Type} [Fintype E] [Fintype I] [DecidableEq E] [DecidableEq I] {h : List Op} {m : Model} (hm : OpfModel.run h = some m)
    (g : Good h) {q : Linear} (hq : linearOf m = some q) (c : Callbacks m.var.total E I) (o : Opt) (solve : AnySolver) (x0 : Fin m.var.total → ℝ)
    (hc : 0 < o.costMult) (hft : 0 ≤ o.feastol) (r : Result m.var.total E I) (hr : pipsFull c q o (solve _ _) x0 = some r) (hs : r.eflag = true)
    {R : Named} (kv : Cut (varBlocks h) (pad r.x) R.val) (kl : Cut (varBlocks h) r.lower R.varL) (ku : Cut (varBlocks h) r.upper R.varU)
    (el : Cut (linBlocks h) r.mu_l R.linL) (eu : Cut (linBlocks h) r.mu_u R.linU) : ValuesOK h R (r.tol o) (compGap o ‖r.x‖ r.dual (r.tol o)) := by
  obtain ⟨-, -, b1, b2⟩ := solved_blocks hm g hq c o solve x0 r hr hs
  obtain ⟨c1, c2⟩ := solved_comp hm g hq c o solve x0 hc hft r hr hs
  obtain ⟨q', hq', -, -, -, -, hok⟩ := linearOf_spec hm g
  rw [hq] at hq'; cases hq'
  obtain ⟨-, sg⟩ := C76_signs c q o (solve _ _) x0 hok hc r hr
  have hlN : (names (linBlocks h)).Nodup := by rw [linBlocks_names]; exact g.linNames
  refine ⟨fun b hb i hi => ?_, fun b hb i hi => ?_⟩
  · have vb : (b.1, b.2.n) ∈ varBlocks h := by rw [← varVals_blocks]; exact List.mem_map.2 ⟨b, hb, rfl⟩
    simp only [kv.getD g.varNames _ vb i hi, kl.getD g.varNames _ vb i hi, ku.getD g.varNames _ vb i hi]
    exact ⟨b1 b hb i hi, (sg _).1, (sg _).2.1, (c1 b hb i hi).1, (c1 b hb i hi).2⟩
  · have lb : (b.1, b.2.A.rows) ∈ linBlocks h := List.mem_map.2 ⟨b, hb, rfl⟩
    simp only [kv.gather, el.getD hlN _ lb i hi, eu.getD hlN _ lb i hi]
    exact ⟨b2 b hb i hi, (sg _).2.2.1, (sg _).2.2.2, (c2 b hb i hi).1, (c2 b hb i hi).2⟩

/-! ### C111 -/

/-- **C111 (algorithm).**  `OPF_ALG` selects PIPS for 0, 560 and 565 (565: with step-size control), IPOPT for 580 if it is installed, and any other code - also the
deprecated ones the code means to translate - ends in an exception. -/
theorem C111_algorithm (ip : Bool) (alg : ℕ) :
    (acSolver ip alg = some .pips ↔ alg = 0 ∨ alg = 560 ∨ alg = 565) ∧ (acSolver ip alg = some .ipopt ↔ alg = 580 ∧ ip = true) ∧
    (acSolver ip alg = none ↔ (alg ≠ 0 ∧ alg ≠ 560 ∧ alg ≠ 565) ∧ (alg = 580 → ip = false)) ∧ (acStepControl alg = true ↔ alg = 565) := by
  have hor : ∀ a b k x : ℕ, a.testBit k = true → b.testBit k = false → ¬ pyOrTest x a b := by
    rintro a b k x h1 h2 ⟨-, h⟩
    have := congrArg (fun n => Nat.testBit n k) h
    simp [Nat.testBit_or, h1, h2] at this
  have e : acAlg alg = if alg = 0 then 560 else alg := by
    unfold acAlg
    simp only
    rw [if_neg (hor 100 200 2 _ (by decide) (by decide)), if_neg (hor 120 220 5 _ (by decide) (by decide)), if_neg (hor 140 240 2 _ (by decide) (by decide)),
      if_neg (hor 160 260 5 _ (by decide) (by decide))]
  unfold acSolver acStepControl
  rw [e]
  by_cases h0 : alg = 0
  · subst h0; simp
  · rw [if_neg h0]
    by_cases h1 : alg = 560 ∨ alg = 565
    · rw [if_pos h1]
      rcases h1 with rfl | rfl <;> simp
    · rw [if_neg h1]
      push Not at h1
      by_cases h2 : alg = 580
      · subst h2; cases ip <;> simp
      · rw [if_neg h2]; simp [h0, h1.1, h1.2, h2]

/-- **C111 (DC)**, partial.  For at most one non-empty cost block: whatever blocks were added to the model, the results can be packaged; every non-empty block appears under its
name with entries for its elements, nothing else appears, the cost of a block is that of the named values; and after a successful run the values and shadow prices under the names
satisfy the bounds and constraints given in the calls.  The tables show the named values.  Missing: several cost blocks, see `C111_negation`; `dd`, `rh`, `kk`, `mm`, see C43. -/
theorem C111_dc_partial (d : Case nb ng nl) (extra : List Op) (m m1 : Model) (hm : OpfModel.run (dcOps d ++ extra) = some m) (t : Tidy (dcOps d ++ extra))
    (hone : OneCost (dcOps d ++ extra)) (hb : m.buildCostParams = some m1) (hbase : d.base ≠ 0)
    (H : Matrix (Fin m.var.total) (Fin m.var.total) ℝ) (C : Fin m.var.total → ℝ) (C0 : ℝ) (o : Opt) (solve : AnySolver) (x0 : Fin m.var.total → ℝ)
    (s : DcRes nb ng nl) (hs : dcopfSolver d m H C C0 o solve x0 = some s) (alg npwl1 : ℕ) :
    ∃ R, package true alg npwl1 m1 (solDc m s) = some R ∧ NamesOK (dcOps d ++ extra) R ∧
      (s.success = true → 0 < o.costMult → 0 ≤ o.feastol →
        ValuesOK (dcOps d ++ extra) R s.tol (compGap o ‖fun i : Fin m.var.total => s.x i‖ s.dual s.tol)) ∧
      (∀ b : Fin nb, (gather R.val ["Va"]).getD b 0 * (180 / Real.pi) = s.VA b) ∧ (∀ p : Fin ng, (gather R.val ["Pg"]).getD p 0 * d.base = s.PG p) ∧
      (∀ b : Fin nb, (gather R.linU ["Pmis"]).getD b 0 - (gather R.linL ["Pmis"]).getD b 0 = s.LAM_P b * d.base) ∧
      (∀ p : Fin ng, (gather R.varU ["Pg"]).getD p 0 = s.MU_PMAX p * d.base ∧ (gather R.varL ["Pg"]).getD p 0 = s.MU_PMIN p * d.base) ∧
      ((npwl1 = 0 ∨ alg = 545 ∨ alg = 550) → R.x = gather R.val (names (varBlocks (dcOps d ++ extra)))) ∧
      (0 < npwl1 ∧ alg ≠ 545 ∧ alg ≠ 550 →
        R.x = gather R.val ["Va", "Pg"] ++ (List.replicate npwl1 0 ++ gather R.val (names (varBlocks extra)))) := by
  obtain ⟨q, r, hq, hr, e1, e3, e4, e5, e6, e7, e8, e9⟩ : ∃ q r, linearOf m = some q ∧ pipsFull (qp H C) q o (solve _ _) x0 = some r ∧ s.success = r.eflag ∧
      s.x = pad r.x ∧ s.tol = r.tol o ∧ s.dual = r.dual ∧ s.lower = r.lower ∧ s.upper = r.upper ∧ s.mu_l = r.mu_l ∧ s.mu_u = r.mu_u := by
    have hs' := hs
    unfold dcopfSolver at hs'
    simp only [Option.bind_eq_bind, Option.bind_eq_some_iff, Option.some.injEq] at hs'
    obtain ⟨q, hq, r, hr, iVa, -, iPg, -, jP, -, jF, -, jT, -, rfl⟩ := hs'
    exact ⟨q, r, hq, hr, rfl, rfl, rfl, rfl, rfl, rfl, rfl, rfl⟩
  have hpgm : "Pg" ∈ names (varBlocks (dcOps d ++ extra)) := by rw [dc_varBlocks]; simp [names]
  obtain ⟨R, hR, hN, kv, kl, ku, el, eu, -, hx⟩ := package_spec hm t hone hb true alg npwl1 (solDc m s) s.x s.lower s.upper s.mu_l s.mu_u rfl rfl rfl rfl rfl (Or.inl rfl)
    (by simpa using hpgm)
  obtain ⟨s1, s2, s3, s4, s5, -⟩ := dc_starts d extra
  obtain ⟨q', r', hq', hr', -, -, x', -, -, hVA, hPG, -, -, -, hLP, -, -, hPl, hPu, ml', mu'⟩ := dc_ofSolver hm t.good hs
  have hlN : (names (linBlocks (dcOps d ++ extra))).Nodup := by rw [linBlocks_names]; exact t.good.linNames
  have va : ("Va", nb) ∈ varBlocks (dcOps d ++ extra) := by rw [dc_varBlocks]; simp
  have pg : ("Pg", ng) ∈ varBlocks (dcOps d ++ extra) := by rw [dc_varBlocks]; simp
  have pm : ("Pmis", nb) ∈ linBlocks (dcOps d ++ extra) := by rw [dc_linBlocks]; simp
  have rr : r' = r := by rw [hq] at hq'; cases hq'; rw [hr] at hr'; exact (Option.some.inj hr').symm
  subst rr
  -- the solution is the values under all the names
  have whole : (solDc m s).x = subvec (varBlocks (dcOps d ++ extra)) s.x (names (varBlocks (dcOps d ++ extra))) := by
    have tv : m.var.total = total (varBlocks (dcOps d ++ extra)) := by rw [(Rep.run hm).var, (foldIdx_basic _).1]
    change (List.range m.var.total).map s.x = _
    rw [tv]
    exact (subvec_names _ t.good.varNames s.x).symm
  have nm : names (varBlocks (dcOps d ++ extra)) = ["Va", "Pg"] ++ names (varBlocks extra) := by rw [dc_varBlocks]; rfl
  refine ⟨R, hR, hN, ?_, ?_, ?_, ?_, ?_, ?_, ?_⟩
  · intro hok hc hft
    have := values_ok hm t.good hq (qp H C) o solve x0 hc hft r' hr (by rw [← e1]; exact hok) (R := R) (by rw [← e3]; exact kv) (by rw [← e6]; exact kl)
      (by rw [← e7]; exact ku) (by rw [← e8]; exact el) (by rw [← e9]; exact eu)
    rw [e4, e5]
    have hx' : (fun i : Fin m.var.total => s.x i) = r'.x := by rw [e3]; funext i; simp [pad]
    rw [hx']
    exact this
  · intro b
    rw [kv.getD t.good.varNames _ va b b.isLt, s1, hVA, ← x', zero_add, mul_div_assoc]
  · intro p
    rw [kv.getD t.good.varNames _ pg p p.isLt, s2, hPG, ← x']
  · intro b
    rw [el.getD hlN _ pm b b.isLt, eu.getD hlN _ pm b b.isLt, s5, hLP, ml', mu', zero_add]
    field_simp
  · intro p
    rw [kl.getD t.good.varNames _ pg p p.isLt, ku.getD t.good.varNames _ pg p p.isLt, s2, hPl, hPu, e6, e7]
    exact ⟨by field_simp, by field_simp⟩
  · intro h
    simp only at hx
    rw [hx, if_neg (by rcases h with h | h | h <;> simp [h]), kv.gather, whole]
  · intro h
    simp only at hx
    have hl2 : (subvec (varBlocks (dcOps d ++ extra)) s.x ["Va", "Pg"]).length = nb + ng := by
      simp [subvec, part, s3, s4]
    rw [hx, if_pos h, kv.gather, kv.gather, whole, nm]
    have sp : subvec (varBlocks (dcOps d ++ extra)) s.x (["Va", "Pg"] ++ names (varBlocks extra)) =
        subvec (varBlocks (dcOps d ++ extra)) s.x ["Va", "Pg"] ++ subvec (varBlocks (dcOps d ++ extra)) s.x (names (varBlocks extra)) := List.flatMap_append
    simp only [if_true]
    rw [sp, s2, s4, List.take_left' hl2, List.drop_left' hl2]

/-- **C111 (AC)**, partial: the same for the AC optimal power flow (no further nonlinear constraints); the nonlinear constraints carry the bus and branch shadow prices.
Missing: as for DC. -/
theorem C111_ac_partial (d : Case nb ng nl) (extra : List Op) (m m1 : Model) (hm : OpfModel.run (acOps d ++ extra) = some m) (t : Tidy (acOps d ++ extra))
    (hone : OneCost (acOps d ++ extra)) (hb : m.buildCostParams = some m1) (hbase : 0 < d.base) (hnl : total (nlnBlocks extra) = 0) (lim : Int) (c : AcData) (o : Opt)
    (solve : AnySolver) (x0 : Fin m.var.total → ℝ) (s : AcRes nb ng nl) (hs : pipsopfSolver d lim c m o solve x0 = some s) (hc : 0 < o.costMult)
    (hrate : ∀ l, 0 ≤ d.rateA l) (alg npwl1 : ℕ) :
    ∃ R, package false alg npwl1 m1 (solAc m s) = some R ∧ NamesOK (acOps d ++ extra) R ∧
      (s.success = true → 0 ≤ o.feastol → ValuesOK (acOps d ++ extra) R s.tol (compGap o ‖fun i : Fin m.var.total => s.x i‖ s.dual s.tol)) ∧
      (∀ b : Fin nb, (gather R.val ["Va"]).getD b 0 * (180 / Real.pi) = s.VA b ∧ (gather R.val ["Vm"]).getD b 0 = s.VM b) ∧
      (∀ p : Fin ng, (gather R.val ["Pg"]).getD p 0 * d.base = s.PG p ∧ (gather R.val ["Qg"]).getD p 0 * d.base = s.QG p) ∧
      (∀ b : Fin nb, (gather R.nlnU ["Pmis"]).getD b 0 - (gather R.nlnL ["Pmis"]).getD b 0 = s.LAM_P b * d.base ∧
        (gather R.nlnU ["Qmis"]).getD b 0 - (gather R.nlnL ["Qmis"]).getD b 0 = s.LAM_Q b * d.base) ∧
      (∀ l : Fin nl, (gather R.nlnU ["Sf"]).getD l 0 = s.MU_SF l * d.base ∧ (gather R.nlnU ["St"]).getD l 0 = s.MU_ST l * d.base ∧
        (gather R.nlnL ["Sf"]).getD l 0 = 0 ∧ (gather R.nlnL ["St"]).getD l 0 = 0) ∧
      ((npwl1 = 0 ∨ alg = 545 ∨ alg = 550) → R.x = gather R.val (names (varBlocks (acOps d ++ extra)))) ∧
      (0 < npwl1 ∧ alg ≠ 545 ∧ alg ≠ 550 →
        R.x = gather R.val ["Va", "Vm", "Pg", "Qg"] ++ (List.replicate npwl1 0 ++ gather R.val (names (varBlocks extra)))) := by
  have hQg : "Qg" ∈ names (varBlocks (acOps d ++ extra)) := by rw [ac_varBlocks]; simp [names]
  have tn : m.nln.total = total (nlnBlocks (acOps d ++ extra)) := by rw [(Rep.run hm).nln, (foldIdx_basic _).1]
  have tn2 : total (nlnBlocks (acOps d ++ extra)) = 2 * nb + 2 * nl := by
    rw [ac_nlnBlocks]
    have : total (("Pmis", nb) :: ("Qmis", nb) :: ("Sf", nl) :: ("St", nl) :: nlnBlocks extra) = nb + (nb + (nl + (nl + total (nlnBlocks extra)))) := rfl
    rw [this, hnl]; ring
  obtain ⟨R, hR, hN, kv, kl, ku, el, eu, kn, hx⟩ := package_spec hm t hone hb false alg npwl1 (solAc m s) s.x s.muVarL s.muVarU s.mu_l s.mu_u rfl rfl rfl rfl rfl
    (Or.inr ⟨by simp [solAc, tn], by simp [solAc, tn2]⟩) (by simpa using hQg)
  obtain ⟨nL, nU⟩ := kn rfl
  obtain ⟨-, q, r, hq, hr, e1, -, e3, e4, e5, e6, e7, e8, e9, -⟩ := ac_ofSolver hm t.good t.nlnNames hbase.ne' hs
  obtain ⟨-, -, -, -, -, -, -, sgN, sgS⟩ := C80_signs d extra m hm t.good t.nlnNames hbase lim c o solve x0 s hs hc hrate
  obtain ⟨-, -, -, -, -, -, -, -, -, -, -, -, -, -, -, -, -, hV, hG, -⟩ := ac_ofSolver hm t.good t.nlnNames hbase.ne' hs
  obtain ⟨s1, s2, s3, s4, n1, n2⟩ := ac_starts d extra
  have va : ("Va", nb) ∈ varBlocks (acOps d ++ extra) := by rw [ac_varBlocks]; simp
  have vm : ("Vm", nb) ∈ varBlocks (acOps d ++ extra) := by rw [ac_varBlocks]; simp
  have pg : ("Pg", ng) ∈ varBlocks (acOps d ++ extra) := by rw [ac_varBlocks]; simp
  have qg : ("Qg", ng) ∈ varBlocks (acOps d ++ extra) := by rw [ac_varBlocks]; simp
  have pm : ("Pmis", nb) ∈ nlnBlocks (acOps d ++ extra) := by rw [ac_nlnBlocks]; simp
  have qm : ("Qmis", nb) ∈ nlnBlocks (acOps d ++ extra) := by rw [ac_nlnBlocks]; simp
  have sf : ("Sf", nl) ∈ nlnBlocks (acOps d ++ extra) := by rw [ac_nlnBlocks]; simp
  have st : ("St", nl) ∈ nlnBlocks (acOps d ++ extra) := by rw [ac_nlnBlocks]; simp
  have n3 : start (nlnBlocks (acOps d ++ extra)) "Sf" = 2 * nb := by rw [ac_nlnBlocks]; simp [start, total]; omega
  have n4 : start (nlnBlocks (acOps d ++ extra)) "St" = 2 * nb + nl := by rw [ac_nlnBlocks]; simp [start, total]; omega
  have gL : ∀ k, k < 2 * nb + 2 * nl → (solAc m s).muNlnL.getD k 0 = s.muNlnL k := fun k hk => range_getD _ _ _ (by rw [tn, tn2]; exact hk)
  have gU : ∀ k, k < 2 * nb + 2 * nl → (solAc m s).muNlnU.getD k 0 = s.muNlnU k := fun k hk => range_getD _ _ _ hk
  have whole : (solAc m s).x = subvec (varBlocks (acOps d ++ extra)) s.x (names (varBlocks (acOps d ++ extra))) := by
    have tv : m.var.total = total (varBlocks (acOps d ++ extra)) := by rw [(Rep.run hm).var, (foldIdx_basic _).1]
    change (List.range m.var.total).map s.x = _
    rw [tv]
    exact (subvec_names _ t.good.varNames s.x).symm
  have nm : names (varBlocks (acOps d ++ extra)) = ["Va", "Vm", "Pg", "Qg"] ++ names (varBlocks extra) := by rw [ac_varBlocks]; rfl
  refine ⟨R, hR, hN, ?_, fun b => ⟨?_, ?_⟩, fun p => ⟨?_, ?_⟩, fun b => ⟨?_, ?_⟩, fun l => ⟨?_, ?_, ?_, ?_⟩, ?_, ?_⟩
  · intro hok hft
    have := values_ok hm t.good hq (callbacks (acNl d lim c) m.var.total) o solve x0 hc hft r hr (by rw [← e1]; exact hok) (R := R) (by rw [← e3]; exact kv)
      (by rw [← e6]; exact kl) (by rw [← e7]; exact ku) (by rw [← e8]; exact el) (by rw [← e9]; exact eu)
    rw [e4, e5]
    have hx' : (fun i : Fin m.var.total => s.x i) = r.x := by rw [e3]; funext i; simp [pad]
    rw [hx']
    exact this
  · rw [kv.getD t.good.varNames _ va b b.isLt, s1, (hV b).1, zero_add, mul_div_assoc]
  · rw [kv.getD t.good.varNames _ vm b b.isLt, s2, (hV b).2]
  · rw [kv.getD t.good.varNames _ pg p p.isLt, s3, (hG p).1]
  · rw [kv.getD t.good.varNames _ qg p p.isLt, s4, (hG p).2.1]
  · rw [nU.getD t.nlnNames _ pm b b.isLt, nL.getD t.nlnNames _ pm b b.isLt, n1, zero_add, gL _ (by omega), gU _ (by omega)]
    exact (sgN b).1.1
  · rw [nU.getD t.nlnNames _ qm b b.isLt, nL.getD t.nlnNames _ qm b b.isLt, n2, gL _ (by omega), gU _ (by omega)]
    exact (sgN b).2.1
  · rw [nU.getD t.nlnNames _ sf l l.isLt, n3, gU _ (by omega)]; exact (sgS l).1
  · rw [nU.getD t.nlnNames _ st l l.isLt, n4, gU _ (by omega)]; exact (sgS l).2.1
  · rw [nL.getD t.nlnNames _ sf l l.isLt, n3, gL _ (by omega)]; exact (sgS l).2.2.1
  · rw [nL.getD t.nlnNames _ st l l.isLt, n4, gL _ (by omega)]; exact (sgS l).2.2.2
  · intro h
    simp only at hx
    rw [hx, if_neg (by rcases h with h | h | h <;> simp [h]), kv.gather, whole]
  · intro h
    simp only at hx
    have s5 : size (varBlocks (acOps d ++ extra)) "Va" = nb ∧ size (varBlocks (acOps d ++ extra)) "Vm" = nb ∧ size (varBlocks (acOps d ++ extra)) "Pg" = ng ∧
        size (varBlocks (acOps d ++ extra)) "Qg" = ng := by rw [ac_varBlocks]; simp [size]
    have hl2 : (subvec (varBlocks (acOps d ++ extra)) s.x ["Va", "Vm", "Pg", "Qg"]).length = 2 * nb + ng + ng := by
      simp [subvec, part, s5.1, s5.2.1, s5.2.2.1, s5.2.2.2]; omega
    rw [hx, if_pos h, kv.gather, kv.gather, whole, nm]
    have sp : subvec (varBlocks (acOps d ++ extra)) s.x (["Va", "Vm", "Pg", "Qg"] ++ names (varBlocks extra)) =
        subvec (varBlocks (acOps d ++ extra)) s.x ["Va", "Vm", "Pg", "Qg"] ++ subvec (varBlocks (acOps d ++ extra)) s.x (names (varBlocks extra)) :=
      List.flatMap_append
    simp only [Bool.false_eq_true, if_false]
    rw [sp, s4, s5.2.2.2, List.take_left' hl2, List.drop_left' hl2]

/-- **C111 is false** for two non-empty cost blocks (say reserve costs and costs of the user): whatever the solver found, packaging the results raises an exception, because
evaluating the first block throws away the rows of the others. -/
theorem C111_negation (h : List Op) (m m1 : Model) (hm : OpfModel.run h = some m) (hc : (names (costBlks h)).Nodup) (hb : m.buildCostParams = some m1)
    (b c : String × CostBlk) (hbm : b ∈ costBlks h) (hcm : c ∈ costBlks h) (hne : b.1 ≠ c.1) (hbp : 0 < b.2.cp.N.rows) (hcp : 0 < c.2.cp.N.rows)
    (dc : Bool) (alg npwl1 : ℕ) (s : Sol) : package dc alg npwl1 m1 s = none := by
  have r := Rep.run hm
  obtain ⟨P, rfl, hP⟩ := build_params_nw m m1 hb
  have hcN : (names (costBlocks h)).Nodup := (costBlocks_names h).symm ▸ hc
  have sz : ∀ b ∈ costBlks h, size (costBlocks h) b.1 = b.2.cp.N.rows := fun b hb => size_of_mem _ hcN (b.1, b.2.cp.N.rows) (List.mem_map.2 ⟨b, hb, rfl⟩)
  have nmem : ∀ b ∈ costBlks h, b.1 ∈ names (costBlocks h) := fun b hb => by rw [costBlocks_names]; exact List.mem_map.2 ⟨b, hb, rfl⟩
  have key := namedCosts_two (fun k => s.x.getD k 0) (costBlocks h) hcN { m with params := some P } P rfl (by rw [hP, r.cost, (foldIdx_basic _).1]) r.cost b.1 c.1
    (nmem b hbm) (nmem c hcm) hne (by rw [sz b hbm]; exact hbp) (by rw [sz c hcm]; exact hcp)
  unfold package
  rw [key]
  simp

/-! ### Examples -/

/-- A user cost of 3 per unit of generation (per unit of power) under the given name. -/
noncomputable def exUserCost (name : String) : Op := .addCosts name ⟨⟨1, 1, fun _ _ => 1⟩, [3], none, none, none, none, none⟩ ["Pg"]

theorem exCost_good {h : List Op} (g : Good h) (name : String) : Good (h ++ [exUserCost name]) := by
  have e1 : varBlocks (h ++ [exUserCost name]) = varBlocks h := by simp [varBlocks, exUserCost]
  have e2 : linBlks (h ++ [exUserCost name]) = linBlks h := by simp [linBlks, exUserCost]
  have e3 : varVals (h ++ [exUserCost name]) = varVals h := by simp [varVals, exUserCost]
  exact ⟨by rw [e1]; exact g.varNames, by rw [e2]; exact g.linNames, by rw [e3]; exact g.varFits, by rw [e1, e2]; exact g.linFits, by rw [e3]; exact g.varSane,
    by rw [e2]; exact g.linSane⟩

theorem exDc_tidy : Tidy (dcOps exCase ++ [exUserCost "c1"]) := by
  have hc : costBlks (dcOps exCase ++ [exUserCost "c1"]) = [("c1", ⟨⟨⟨1, 1, fun _ _ => 1⟩, [3], none, none, none, none, none⟩, ["Pg"]⟩)] := by
    simp [costBlks, dcOps, exUserCost]
  refine ⟨exCost_good exCase_ok.good _, ?_, ?_, ?_, ?_⟩
  · simp [nlnBlocks, dcOps, exUserCost, names]
  · rw [hc]; simp [names]
  · rw [hc, dc_varBlocks]
    simp only [List.mem_singleton, forall_eq]
    exact ⟨by simp, by simp [widthOf, eff, size]⟩
  · rw [hc]; simp

/-- A successful DC run with a user cost. -/
example : ∃ (m m1 : Model) (o : Opt) (s : DcRes 2 1 1), OpfModel.run (dcOps exCase ++ [exUserCost "c1"]) = some m ∧ Tidy (dcOps exCase ++ [exUserCost "c1"]) ∧
    OneCost (dcOps exCase ++ [exUserCost "c1"]) ∧ m.buildCostParams = some m1 ∧ exCase.base ≠ 0 ∧ 0 < o.costMult ∧ 0 ≤ o.feastol ∧
    dcopfSolver exCase m 0 1 0 o (fun _ _ _ _ => none) 0 = some s ∧ s.success = true ∧ costBlks (dcOps exCase ++ [exUserCost "c1"]) ≠ [] := by
  obtain ⟨m, hm⟩ : ∃ m, OpfModel.run (dcOps exCase ++ [exUserCost "c1"]) = some m := by
    simp [OpfModel.run, dcOps, exUserCost, List.foldlM, step, Model.addLin, Model.addCosts, storeVs, Model.resolve, Model.addVars, Idx.add, Model.init, Idx.empty, Model.width,
      Dict.set, badLen, badH, hcat, matOf]
  have t := exDc_tidy
  obtain ⟨P, hP, -⟩ := C43_partial _ m hm t.good.varNames t.costNames t.costFits (Or.inr t.costPlain)
  obtain ⟨q, hq, -, -, -, -, hok⟩ := linearOf_spec hm t.good
  obtain ⟨o, h1, h3, h2⟩ := exists_success (problem (qp (n := m.var.total) 0 1) q) 0
  obtain ⟨r, hr⟩ := C76_returns (qp (n := m.var.total) 0 1) q o (fun _ _ => none) 0 hok
  obtain ⟨i1, i2, i3, i4, i5⟩ := dc_idx hm t.good
  obtain ⟨s, hs⟩ : ∃ s, dcopfSolver exCase m 0 1 0 o (fun _ _ _ _ => none) 0 = some s := by
    unfold dcopfSolver
    simp only [hq, hr, i1, i2, i3, i4, i5, Option.bind_eq_bind, Option.bind_some]
    exact ⟨_, rfl⟩
  obtain ⟨q', r', hq', hr', e1, -⟩ := dc_ofSolver hm t.good hs
  rw [hq] at hq'; cases hq'
  refine ⟨m, _, o, s, hm, t, ?_, hP, exCase_ok.base.ne', h1, h3.le, hs, ?_, ?_⟩
  · intro b hb c hc
    simp [costBlks, dcOps, exUserCost] at hb hc
    simp [hb, hc]
  · rw [e1, (ofFull hr').2.1]; exact h2 _
  · simp [costBlks, dcOps, exUserCost]

/-- A successful AC run. -/
example : ∃ (m m1 : Model) (o : Opt) (s : AcRes 2 1 1) (x0 : Fin m.var.total → ℝ), OpfModel.run (acOps exCase ++ []) = some m ∧ Tidy (acOps exCase ++ []) ∧
    OneCost (acOps exCase ++ []) ∧ m.buildCostParams = some m1 ∧ 0 < exCase.base ∧ total (nlnBlocks []) = 0 ∧ 0 < o.costMult ∧ 0 ≤ o.feastol ∧
    (∀ l, 0 ≤ exCase.rateA l) ∧ pipsopfSolver exCase 0 exCost m o (fun _ _ _ _ => none) x0 = some s ∧ s.success = true := by
  have hl : ∃ l, exCase.rateA l ≠ 0 ∧ exCase.rateA l < 10 ^ 10 := ⟨0, by norm_num [exCase]⟩
  obtain ⟨m, hm, hall⟩ := C81_completes_partial exCase exCase_acok 0 exCost exCost_ok rfl (Or.inr ⟨0, by simp [exCost], rfl⟩) hl
  obtain ⟨g, hn⟩ := exCase_acok.good
  obtain ⟨q, hq, ht, -, -, -, hok⟩ := linearOf_spec hm g
  obtain ⟨o, h1, h3, h2⟩ := exists_success_at (problem (callbacks (acNl exCase 0 exCost) m.var.total) q) fun _ => 1
  obtain ⟨s, hs⟩ := hall o (fun _ _ _ _ => none) fun _ => 1
  have hm' : OpfModel.run (acOps exCase ++ []) = some m := by rw [List.append_nil]; exact hm
  have g' : Good (acOps exCase ++ []) := by rw [List.append_nil]; exact g
  have n' : (names (nlnBlocks (acOps exCase ++ []))).Nodup := by rw [List.append_nil]; exact hn
  have hc : costBlks (acOps exCase ++ []) = [] := by simp [costBlks, acOps]
  have t : Tidy (acOps exCase ++ []) := ⟨g', n', by rw [hc]; simp [names], by rw [hc]; simp, by rw [hc]; simp⟩
  obtain ⟨P, hP, -⟩ := C43_partial _ m hm' t.good.varNames t.costNames t.costFits (Or.inr t.costPlain)
  obtain ⟨-, q', r, hq', hr, e1, -⟩ := ac_ofSolver hm' g' n' exCase_acok.base.ne' hs
  rw [hq] at hq'; cases hq'
  refine ⟨m, _, o, s, _, hm', t, fun b hb => by rw [hc] at hb; simp at hb, hP, exCase_acok.base, rfl, h1, h3.le, fun l => by norm_num [exCase], hs, ?_⟩
  rw [e1, (ofFull hr).2.1]; exact (h2 ((fun _ _ _ _ => none : AnySolver) _ _)).1

/-- Two user costs: the model is built, the solver succeeds, and no results come back. -/
example : ∃ (m m1 : Model) (o : Opt) (s : DcRes 2 1 1), OpfModel.run (dcOps exCase ++ ([exUserCost "c1"] ++ [exUserCost "c2"])) = some m ∧
    m.buildCostParams = some m1 ∧ dcopfSolver exCase m 0 1 0 o (fun _ _ _ _ => none) 0 = some s ∧ s.success = true ∧ package true 0 0 m1 (solDc m s) = none := by
  obtain ⟨m, hm⟩ : ∃ m, OpfModel.run (dcOps exCase ++ ([exUserCost "c1"] ++ [exUserCost "c2"])) = some m := by
    simp [OpfModel.run, dcOps, exUserCost, List.foldlM, step, Model.addLin, Model.addCosts, storeVs, Model.resolve, Model.addVars, Idx.add, Model.init, Idx.empty, Model.width,
      Dict.set, badLen, badH, hcat, matOf]
  have g : Good (dcOps exCase ++ ([exUserCost "c1"] ++ [exUserCost "c2"])) := by
    rw [← List.append_assoc]; exact exCost_good (exCost_good exCase_ok.good _) _
  have hc : costBlks (dcOps exCase ++ ([exUserCost "c1"] ++ [exUserCost "c2"])) = [("c1", ⟨⟨⟨1, 1, fun _ _ => 1⟩, [3], none, none, none, none, none⟩, ["Pg"]⟩),
      ("c2", ⟨⟨⟨1, 1, fun _ _ => 1⟩, [3], none, none, none, none, none⟩, ["Pg"]⟩)] := by
    simp [costBlks, dcOps, exUserCost]
  have cn : (names (costBlks (dcOps exCase ++ ([exUserCost "c1"] ++ [exUserCost "c2"])))).Nodup := by rw [hc]; simp [names]
  obtain ⟨P, hP, -⟩ := C43_partial _ m hm g.varNames cn (by
    rw [hc, dc_varBlocks]
    simp only [List.mem_cons, List.not_mem_nil, or_false, forall_eq_or_imp, forall_eq]
    exact ⟨⟨by simp, by simp [widthOf, eff, size]⟩, ⟨by simp, by simp [widthOf, eff, size]⟩⟩) (Or.inr (by rw [hc]; simp))
  obtain ⟨q, hq, -, -, -, -, hok⟩ := linearOf_spec hm g
  obtain ⟨o, h1, h3, h2⟩ := exists_success (problem (qp (n := m.var.total) 0 1) q) 0
  obtain ⟨r, hr⟩ := C76_returns (qp (n := m.var.total) 0 1) q o (fun _ _ => none) 0 hok
  obtain ⟨i1, i2, i3, i4, i5⟩ := dc_idx hm g
  obtain ⟨s, hs⟩ : ∃ s, dcopfSolver exCase m 0 1 0 o (fun _ _ _ _ => none) 0 = some s := by
    unfold dcopfSolver
    simp only [hq, hr, i1, i2, i3, i4, i5, Option.bind_eq_bind, Option.bind_some]
    exact ⟨_, rfl⟩
  obtain ⟨q', r', hq', hr', e1, -⟩ := dc_ofSolver hm g hs
  rw [hq] at hq'; cases hq'
  refine ⟨m, _, o, s, hm, hP, hs, by rw [e1, (ofFull hr').2.1]; exact h2 _, ?_⟩
  exact C111_negation _ m _ hm cn hP _ _ (by rw [hc]; exact List.mem_cons_self) (by rw [hc]; exact List.mem_cons_of_mem _ List.mem_cons_self) (by simp) (by simp) (by simp) _ _ _ _

end Verif.Opf
