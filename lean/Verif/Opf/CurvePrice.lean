import Verif.Opf.CurveCases

/-!
# Lemmas about the multipliers of runs with capability curves
-/

namespace Verif.Opf

open Verif.Index (BusRow GenRow BranchRow IsArgsort WF GenInService BranchInService Connected)
open Verif.OpfModel Verif.Pips Verif.Network Verif.OpfCost Verif.NumPy

section coefs
variable {nb ng nl : ℕ} (d : Case nb ng nl) (extra : List Op)

theorem subvec_single (t : ℕ) : (fun τ => (subvec (varBlocks (acOps d ++ extra)) (Pi.single (2 * nb + t) (1 : ℝ)) (eff (varBlocks (acOps d ++ extra)) ["Pg", "Qg"])).getD τ 0) =
    fun τ => if τ < 2 * ng then (Pi.single t (1 : ℝ) : ℕ → ℝ) τ else 0 := by
  funext τ
  have hl : (subvec (varBlocks (acOps d ++ extra)) (Pi.single (2 * nb + t) (1 : ℝ)) (eff (varBlocks (acOps d ++ extra)) ["Pg", "Qg"])).length = 2 * ng := by
    obtain ⟨-, h3, h4⟩ := ac_sizes d extra
    simp only [eff, subvec, List.cons_ne_nil, if_false, List.flatMap_cons, List.flatMap_nil, List.append_nil, List.length_append, part_length, h3, h4]
    omega
  have hsing : ∀ a b c e : ℕ, (a = b ↔ c = e) → (Pi.single b (1 : ℝ) : ℕ → ℝ) a = (Pi.single e (1 : ℝ) : ℕ → ℝ) c := by
    intro a b c e h
    rw [Pi.single_apply, Pi.single_apply]
    by_cases h1 : a = b
    · rw [if_pos h1, if_pos (h.1 h1)]
    · rw [if_neg h1, if_neg fun h2 => h1 (h.2 h2)]
  by_cases h1 : τ < ng
  · rw [(ac_subvec_PQ d extra _ ⟨τ, h1⟩).1, if_pos (by omega)]
    exact hsing _ _ _ _ (by simp only; omega)
  · by_cases h2 : τ < 2 * ng
    · have := (ac_subvec_PQ d extra (Pi.single (2 * nb + t) (1 : ℝ)) ⟨τ - ng, by omega⟩).2
      rw [show τ - ng + ng = τ by omega] at this
      rw [this, if_pos h2]
      exact hsing _ _ _ _ (by simp only; omega)
    · rw [if_neg h2, List.getD_eq_default _ _ (by omega)]

theorem row_congr (A : Constr.Coo) (x y : ℕ → ℝ) (i : ℕ) (h : ∀ e ∈ A, x e.2.1 = y e.2.1) : A.row x i = A.row y i := by
  unfold Constr.Coo.row
  refine congrArg List.sum (List.map_congr_left fun e he => ?_)
  rw [h e (List.mem_filter.1 he).1]

/-- The coefficient of an output in a row of a block over the outputs. -/
theorem coo_coef (n : ℕ) (A : Constr.Coo) (hA : ∀ e ∈ A, e.2.1 < 2 * ng) (l u : List EReal) (t i : ℕ) :
    coef (varBlocks (acOps d ++ extra)) ⟨cooMat n (2 * ng) A, l, u, ["Pg", "Qg"]⟩ i (2 * nb + t) = A.row (Pi.single t 1) i := by
  unfold coef
  refine (cooMat_row _ _ _ _ _ hA).trans ?_
  rw [subvec_single]
  exact row_congr _ _ _ _ fun e he => if_pos (hA e he)

theorem pq_coef {gen : List Constr.Gen} (hlen : gen.length = ng) {mask : Constr.Gen → Bool} {va vb : Constr.Gen → ℝ} {lo hi : Constr.Gen → EReal} {B : LinBlk}
    (hB : PqBlock gen gen.length mask va vb lo hi B) (i k : ℕ) (g : Constr.Gen) (hi' : (find (gen.map mask))[i]? = some k) (hg : gen[k]? = some g) (t : ℕ) :
    coef (varBlocks (acOps d ++ extra)) B i (2 * nb + t) = va g * (Pi.single t (1 : ℝ) : ℕ → ℝ) k + vb g * (Pi.single t (1 : ℝ) : ℕ → ℝ) (k + ng) := by
  unfold coef
  rw [(hB.row i k g hi' hg).1, hB.vs]
  have h1 := congrFun (subvec_single d extra t) k
  have h2 := congrFun (subvec_single d extra t) (k + gen.length)
  have hk := (List.getElem?_eq_some_iff.1 hg).1
  rw [h1, h2, if_pos (by omega), if_pos (by omega), hlen]

theorem ang_coef {E : Econ} {c : Index.Case Tables} (hv : ∀ b ∈ angRows E c, b.f < nb ∧ b.t < nb) {B : LinBlk} (hvs : B.vs = ["Va"]) {i : ℕ} {b : Constr.Branch}
    (hb : b ∈ angRows E c) (hrow : AngRow B i b) (t : ℕ) : coef (varBlocks (acOps d ++ extra)) B i (2 * nb + t) = 0 := by
  unfold coef
  obtain ⟨h1, h2⟩ := hv b hb
  rw [hrow.row, hvs, ac_subvec_Va d extra _ ⟨b.f, h1⟩, ac_subvec_Va d extra _ ⟨b.t, h2⟩, Pi.single_apply, Pi.single_apply, if_neg (by omega), if_neg (by omega),
    sub_zero]

end coefs

theorem half_cols {base : ℝ} {mask : Constr.Gen → Bool} {half : Constr.Gen → Constr.Half} {gen : List Constr.Gen} {L : Constr.Lin}
    (h : Constr.halfRows base mask half gen = some L) : L.n = (find (gen.map mask)).length ∧ ∀ e ∈ L.A, e.2.1 < 2 * gen.length := by
  unfold Constr.halfRows at h
  simp only [gather_find, Option.bind_eq_bind, Option.bind_some, Option.some.injEq] at h
  subst h
  have hA := two_cols gen mask (fun g => (half g).normalise.a) (fun g => (half g).normalise.b)
  unfold twoOf at hA
  refine ⟨rfl, ?_⟩
  simp only [List.map_map]
  exact hA

/-- Sum of the absolute coefficients of one output in a block of rows for flagged generators: at most one row, none if the generator is not flagged. -/
theorem pq_abs {nb ng nl : ℕ} (d : Case nb ng nl) (extra : List Op) {gen : List Constr.Gen} (hlen : gen.length = ng) {mask : Constr.Gen → Bool} {va vb : Constr.Gen → ℝ}
    {lo hi : Constr.Gen → EReal} {B : LinBlk} (hB : PqBlock gen gen.length mask va vb lo hi B) (h1 : ∀ g, |va g| ≤ 1) (h2 : ∀ g, |vb g| ≤ 1) {t p : ℕ} (hp : p < ng)
    (ht : t = p ∨ t = p + ng) :
    ∑ i ∈ Finset.range B.A.rows, |coef (varBlocks (acOps d ++ extra)) B i (2 * nb + t)| ≤ 1 ∧
    ((∀ g, gen[p]? = some g → mask g = false) → ∀ i < B.A.rows, coef (varBlocks (acOps d ++ extra)) B i (2 * nb + t) = 0) := by
  have key : ∀ i < B.A.rows, ∃ k g, (find (gen.map mask))[i]? = some k ∧ gen[k]? = some g ∧ mask g = true ∧
      |coef (varBlocks (acOps d ++ extra)) B i (2 * nb + t)| ≤ if k = p then 1 else 0 := by
    intro i hi'
    rw [hB.rows] at hi'
    obtain ⟨g, e1, e2, -⟩ := Constr.find_row gen mask i _ (List.getElem?_eq_getElem hi')
    have hk := (List.getElem?_eq_some_iff.1 e1).1
    refine ⟨_, g, List.getElem?_eq_getElem hi', e1, e2, ?_⟩
    rw [pq_coef d extra hlen hB i _ g (List.getElem?_eq_getElem hi') e1 t]
    set k := (find (gen.map mask))[i]
    rw [Pi.single_apply, Pi.single_apply]
    rcases ht with rfl | rfl
    · rw [if_neg (show ¬ k + ng = t by omega), mul_zero, add_zero]
      split_ifs
      · rw [mul_one]; exact h1 g
      · simp
    · rw [if_neg (show ¬ k = p + ng by omega), mul_zero, zero_add]
      by_cases hkp : k = p
      · rw [if_pos (by omega), if_pos hkp, mul_one]; exact h2 g
      · rw [if_neg (by omega), if_neg hkp]; simp
  constructor
  · have hle : ∀ i ∈ Finset.range B.A.rows, |coef (varBlocks (acOps d ++ extra)) B i (2 * nb + t)| ≤ if (find (gen.map mask))[i]? = some p then 1 else 0 := by
      intro i hi'
      obtain ⟨k, g, e1, -, -, e2⟩ := key i (Finset.mem_range.1 hi')
      rw [e1]
      simp only [Option.some.injEq]
      exact e2
    refine (Finset.sum_le_sum hle).trans ?_
    rw [Finset.sum_boole]
    have : (Finset.filter (fun i => (find (gen.map mask))[i]? = some p) (Finset.range B.A.rows)).card ≤ 1 := by
      rw [Finset.card_le_one]
      intro a ha b hb'
      simp only [Finset.mem_filter] at ha hb'
      have hal := (List.getElem?_eq_some_iff.1 ha.2).1
      exact (List.getElem?_inj hal (find_nodup _)).1 (ha.2.trans hb'.2.symm)
    exact_mod_cast this
  · intro hno i hi'
    obtain ⟨k, g, -, e1, e2, e3⟩ := key i hi'
    have hne : k ≠ p := by
      rintro rfl
      rw [hno g e1] at e2
      cases e2
    rw [if_neg hne] at e3
    exact abs_eq_zero.1 (le_antisymm e3 (abs_nonneg _))

theorem norm_coef (h : Constr.Half) : |h.normalise.a| ≤ 1 ∧ |h.normalise.b| ≤ 1 := by
  simp only [Constr.Half.normalise]
  have ha : |h.a| ≤ Real.sqrt (h.a ^ 2 + h.b ^ 2) := Real.abs_le_sqrt (by nlinarith [sq_nonneg h.b])
  have hb : |h.b| ≤ Real.sqrt (h.a ^ 2 + h.b ^ 2) := Real.abs_le_sqrt (by nlinarith [sq_nonneg h.a])
  have h0 := Real.sqrt_nonneg (h.a ^ 2 + h.b ^ 2)
  rw [abs_div, abs_div, abs_of_nonneg h0]
  exact ⟨div_le_one_of_le₀ ha h0, div_le_one_of_le₀ hb h0⟩

theorem form_single (l : List ℝ) (off t : ℕ) : Mupq.form l off (Pi.single t 1) = if off ≤ t ∧ t < off + l.length then l.getD (t - off) 0 else 0 := by
  unfold Mupq.form
  have e : ∀ i, l.getD i 0 * (Pi.single t (1 : ℝ) : ℕ → ℝ) (off + i) = if off + i = t then l.getD i 0 else 0 := by
    intro i
    rw [Pi.single_apply]
    split_ifs <;> simp
  simp only [e]
  rw [← List.sum_toFinset _ List.nodup_range]
  have : (List.range l.length).toFinset = Finset.range l.length := by ext; simp
  rw [this]
  split_ifs with h
  · rw [Finset.sum_eq_single (t - off)]
    · rw [if_pos (by omega)]
    · intro b _ hb; rw [if_neg (by omega)]
    · intro hn; exact absurd (Finset.mem_range.2 (by omega)) hn
  · refine Finset.sum_eq_zero fun i hi => ?_
    have := Finset.mem_range.1 hi
    rw [if_neg (by omega)]

/-- The multipliers of a block of rows on variable `j`. -/
noncomputable def blkTerm (vb lb : List (String × ℕ)) (B : LinBlk) (nm : String) (l u : ℕ → ℝ) (j : ℕ) : ℝ :=
  ∑ i ∈ Finset.range B.A.rows, coef vb B i j * (u (start lb nm + i) - l (start lb nm + i))

theorem limit_single (mu : List Mupq.GenMu) {ng : ℕ} (hlen : mu.length = ng) (p : Fin ng) :
    Mupq.limitTerm mu (Pi.single (p : ℕ) 1) = (muRow mu p).pmax - (muRow mu p).pmin ∧ Mupq.limitTerm mu (Pi.single (ng + (p : ℕ)) 1) = (muRow mu p).qmax - (muRow mu p).qmin := by
  have hp := p.isLt
  have get : ∀ f : Mupq.GenMu → ℝ, (mu.map f).getD p 0 = f (muRow mu p) := by
    intro f
    unfold muRow
    rw [List.getD_eq_getElem _ _ (by simp; omega), List.getD_eq_getElem _ _ (by omega), List.getElem_map]
  unfold Mupq.limitTerm
  simp only [form_single, List.length_map, hlen]
  constructor
  · rw [if_pos (by omega), if_neg (by omega), add_zero, Nat.sub_zero, get]
  · rw [if_neg (by omega), if_pos (by omega), zero_add, Nat.add_sub_cancel_left, get]

theorem linTerm_single {nb ng nl : ℕ} (d : Case nb ng nl) (extra : List Op) (h : Constr.Lin) (hA : ∀ e ∈ h.A, e.2.1 < 2 * ng) (nm : String) (l u : ℕ → ℝ) (t : ℕ) :
    Mupq.linTerm h (muSlice l (start (linBlocks (acOps d ++ extra)) nm) h.n) (muSlice u (start (linBlocks (acOps d ++ extra)) nm) h.n) (Pi.single t 1) =
      blkTerm (varBlocks (acOps d ++ extra)) (linBlocks (acOps d ++ extra)) ⟨cooMat h.n (2 * ng) h.A, [], h.upper, ["Pg", "Qg"]⟩ nm l u (2 * nb + t) := by
  unfold Mupq.linTerm blkTerm
  rw [← List.sum_toFinset _ List.nodup_range]
  have : (List.range h.n).toFinset = Finset.range h.n := by ext; simp
  rw [this]
  refine Finset.sum_congr rfl fun i hi => ?_
  have hi' : i < h.n := Finset.mem_range.1 hi
  rw [coo_coef d extra _ _ hA]
  have g : ∀ v : ℕ → ℝ, (muSlice v (start (linBlocks (acOps d ++ extra)) nm) h.n).getD i 0 = v (start (linBlocks (acOps d ++ extra)) nm + i) := by
    intro v
    unfold muSlice
    rw [List.getD_eq_getElem _ _ (by simpa using hi')]
    simp
  rw [g, g]
  ring

/-- The table of multipliers after the translation. -/
theorem curveMu_spec {base : ℝ} {K : Curves} {c' : Index.Case Tables} {d : Case c'.bus.length c'.gen.length c'.branch.length} (hbase : d.base = base) {m : Model}
    (hm : OpfModel.run (acOps d ++ curveExtra K d c') = some m) (g : Good (acOps d ++ curveExtra K d c'))
    {s : AcRes c'.bus.length c'.gen.length c'.branch.length} {mu : List Mupq.GenMu} (hmu : curveMu base K c' m s = some mu) :
    ∃ H L V : LinBlk, curveOps d.base K c'.gen.length c' = [.addLin "PQh" H.A H.l H.u H.vs, .addLin "PQl" L.A L.l L.u L.vs, .addLin "vl" V.A V.l V.u V.vs] ∧
      UpB d.base (K.rows c') H ∧ LoB d.base (K.rows c') L ∧ VlB d.base (K.rows c') V ∧
      (∀ p : Fin c'.gen.length,
        (muRow mu p).pmax - (muRow mu p).pmin = s.MU_PMAX p - s.MU_PMIN p +
          blkTerm (varBlocks (acOps d ++ curveExtra K d c')) (linBlocks (acOps d ++ curveExtra K d c')) H "PQh" s.mu_l s.mu_u (2 * c'.bus.length + p) / base +
          blkTerm (varBlocks (acOps d ++ curveExtra K d c')) (linBlocks (acOps d ++ curveExtra K d c')) L "PQl" s.mu_l s.mu_u (2 * c'.bus.length + p) / base ∧
        (muRow mu p).qmax - (muRow mu p).qmin = s.MU_QMAX p - s.MU_QMIN p +
          blkTerm (varBlocks (acOps d ++ curveExtra K d c')) (linBlocks (acOps d ++ curveExtra K d c')) H "PQh" s.mu_l s.mu_u (2 * c'.bus.length + (c'.gen.length + p)) / base +
          blkTerm (varBlocks (acOps d ++ curveExtra K d c')) (linBlocks (acOps d ++ curveExtra K d c')) L "PQl" s.mu_l s.mu_u (2 * c'.bus.length + (c'.gen.length + p)) / base) ∧
      ((∃ g ∈ K.rows c', Constr.hasPQcapU g = true) → ∀ p : Fin c'.gen.length, 0 ≤ (muRow mu p).pmax ∧ 0 ≤ (muRow mu p).pmin ∧ 0 ≤ (muRow mu p).qmax ∧
        0 ≤ (muRow mu p).qmin ∧ (muRow mu p).pmax * (muRow mu p).pmin = 0 ∧ (muRow mu p).qmax * (muRow mu p).qmin = 0) := by
  have r := Rep.run hm
  have hl := (foldIdx_lookup (linBlocks (acOps d ++ curveExtra K d c')) (by rw [linBlocks_names]; exact g.linNames)).1
  obtain ⟨H, L, V, h, l, hA, hhn, hln, hH, hL, hops, uB, lB, vB⟩ := curve_blocks d.base K c' rfl
  have hin : ∀ n ∈ ["PQh", "PQl"], n ∈ names (linBlocks (acOps d ++ curveExtra K d c')) := by
    intro n hn
    rw [linBlocks_names, ac_linBlks]
    unfold curveExtra
    rw [hops]
    simp only [List.mem_cons, List.not_mem_nil, or_false] at hn
    rcases hn with rfl | rfl <;> simp [linBlks, names]
  have i1 := (hl "PQh" (hin _ (by simp))).1
  have i2 := (hl "PQl" (hin _ (by simp))).1
  rw [← r.lin] at i1 i2
  refine ⟨H, L, V, hops, uB, lB, vB, ?_⟩
  subst hbase
  have hlen : (K.rows c').length = c'.gen.length := by simp [Curves.rows]
  have hcols : (∀ e ∈ h.A, e.2.1 < 2 * c'.gen.length) ∧ ∀ e ∈ l.A, e.2.1 < 2 * c'.gen.length := by
    unfold Constr.makeApq at hA
    simp only [Option.bind_eq_bind, Option.bind_eq_some_iff, Option.some.injEq, Prod.mk.injEq] at hA
    obtain ⟨h1, e1, l1, e2, rfl, rfl⟩ := hA
    rw [← hlen]
    exact ⟨(half_cols e1).2, (half_cols e2).2⟩
  unfold curveMu at hmu
  simp only [hA, i1, i2, Option.bind_eq_bind, Option.bind_some] at hmu
  set mu0 : List Mupq.GenMu := List.ofFn fun k : Fin c'.gen.length => ⟨s.MU_PMAX k, s.MU_PMIN k, s.MU_QMAX k, s.MU_QMIN k⟩ with hmu0
  have hl0 : mu0.length = c'.gen.length := by simp [hmu0]
  have hrow0 : ∀ p : Fin c'.gen.length, muRow mu0 p = ⟨s.MU_PMAX p, s.MU_PMIN p, s.MU_QMAX p, s.MU_QMIN p⟩ := by
    intro p
    unfold muRow
    rw [List.getD_eq_getElem _ _ (by rw [hl0]; exact p.isLt)]
    simp [hmu0]
  by_cases hU : ∃ g ∈ K.rows c', Constr.hasPQcapU g = true
  · by_cases hLo : ∃ g ∈ K.rows c', Constr.hasPQcapL g = true
    · obtain ⟨mu', hmu', hlm, hid, hpos⟩ := Mupq.C64_partial d.base (K.rows c') mu0 (by rw [hl0, hlen])
        (muSlice s.mu_l (start (linBlocks (acOps d ++ curveExtra K d c')) "PQh") h.n) (muSlice s.mu_u (start (linBlocks (acOps d ++ curveExtra K d c')) "PQh") h.n)
        (muSlice s.mu_l (start (linBlocks (acOps d ++ curveExtra K d c')) "PQl") l.n) (muSlice s.mu_u (start (linBlocks (acOps d ++ curveExtra K d c')) "PQl") l.n)
        hU hLo h l hA (by simp [muSlice]) (by simp [muSlice]) (by simp [muSlice]) (by simp [muSlice])
      have hmm : mu' = mu := Option.some.inj (hmu'.symm.trans hmu)
      subst hmm
      rw [hl0] at hlm
      constructor
      · intro p
        have a1 := hid (Pi.single (p : ℕ) 1)
        have a2 := hid (Pi.single (c'.gen.length + (p : ℕ)) 1)
        rw [linTerm_single d _ h hcols.1, linTerm_single d _ l hcols.2, ← hH, ← hL] at a1 a2
        rw [(limit_single mu' hlm p).1, (limit_single mu0 hl0 p).1, hrow0] at a1
        rw [(limit_single mu' hlm p).2, (limit_single mu0 hl0 p).2, hrow0] at a2
        exact ⟨a1, a2⟩
      · intro _ p
        refine hpos _ ?_
        unfold muRow
        rw [List.getD_eq_getElem _ _ (by rw [hlm]; exact p.isLt)]
        exact List.getElem_mem _
    · rw [Mupq.C64_negation _ _ _ _ _ _ _ (Or.inl ⟨hU, none_of hLo⟩)] at hmu
      cases hmu
  · by_cases hLo : ∃ g ∈ K.rows c', Constr.hasPQcapL g = true
    · rw [Mupq.C64_negation _ _ _ _ _ _ _ (Or.inr ⟨hLo, none_of hU⟩)] at hmu
      cases hmu
    · rw [Mupq.C64_none _ _ _ _ _ _ _ (none_of hU) (none_of hLo)] at hmu
      have hmm : mu0 = mu := Option.some.inj hmu
      have z : ∀ q : Constr.Gen → Bool, (∀ g ∈ K.rows c', q g = false) → (find ((K.rows c').map q)).length = 0 := by
        intro q hq
        rw [find_map_length, List.length_eq_zero_iff, List.filter_eq_nil_iff]
        intro g hg; simp [hq g hg]
      have zH : H.A.rows = 0 := by rw [uB.rows]; exact z _ (none_of hU)
      have zL : L.A.rows = 0 := by rw [lB.rows]; exact z _ (none_of hLo)
      constructor
      · intro p
        rw [← hmm, hrow0]
        simp [blkTerm, zH, zL]
      · intro h1; exact absurd h1 hU

/-- The contribution of a dispatchable load's own row; nothing for other generators. -/
theorem vl_term {nb ng nl : ℕ} (d : Case nb ng nl) (extra : List Op) {gen : List Constr.Gen} (hlen : gen.length = ng) {mask : Constr.Gen → Bool} {va vb : Constr.Gen → ℝ}
    {lo hi : Constr.Gen → EReal} {B : LinBlk} (hB : PqBlock gen gen.length mask va vb lo hi B) (nm : String) (l u : ℕ → ℝ) (p : Fin ng) (g : Constr.Gen) (hg : gen[(p : ℕ)]? = some g) :
    ∃ M, (mask g = false → M = 0) ∧ blkTerm (varBlocks (acOps d ++ extra)) (linBlocks (acOps d ++ extra)) B nm l u (2 * nb + p) = va g * M ∧
      blkTerm (varBlocks (acOps d ++ extra)) (linBlocks (acOps d ++ extra)) B nm l u (2 * nb + (ng + p)) = vb g * M := by
  have hp := p.isLt
  have co : ∀ i < B.A.rows, ∃ k g', (find (gen.map mask))[i]? = some k ∧ gen[k]? = some g' ∧ k < ng ∧
      coef (varBlocks (acOps d ++ extra)) B i (2 * nb + p) = (if k = (p : ℕ) then va g' else 0) ∧
      coef (varBlocks (acOps d ++ extra)) B i (2 * nb + (ng + p)) = if k = (p : ℕ) then vb g' else 0 := by
    intro i hi'
    rw [hB.rows] at hi'
    obtain ⟨g', e1, e2, -⟩ := Constr.find_row gen mask i _ (List.getElem?_eq_getElem hi')
    have hk := (List.getElem?_eq_some_iff.1 e1).1
    refine ⟨_, g', List.getElem?_eq_getElem hi', e1, by omega, ?_, ?_⟩
    · rw [pq_coef d extra hlen hB i _ g' (List.getElem?_eq_getElem hi') e1, Pi.single_apply, Pi.single_apply, if_neg (show ¬ _ + ng = (p : ℕ) by omega)]
      split_ifs <;> simp
    · rw [pq_coef d extra hlen hB i _ g' (List.getElem?_eq_getElem hi') e1, Pi.single_apply, Pi.single_apply, if_neg (show ¬ _ = ng + (p : ℕ) by omega)]
      by_cases e : (find (gen.map mask))[i] = (p : ℕ)
      · rw [if_pos (by omega), if_pos e]; simp
      · rw [if_neg (by omega), if_neg e]; simp
  by_cases hm : mask g = true
  · obtain ⟨i, hi'⟩ := Constr.find_pos gen mask p g hg hm
    have hil := (List.getElem?_eq_some_iff.1 hi').1
    have hi2 : i < B.A.rows := by rw [hB.rows]; exact hil
    refine ⟨u (start (linBlocks (acOps d ++ extra)) nm + i) - l (start (linBlocks (acOps d ++ extra)) nm + i), fun h => absurd h (by rw [hm]; simp), ?_, ?_⟩
    all_goals
      unfold blkTerm
      rw [Finset.sum_eq_single i]
      · obtain ⟨k, g', e1, e2, -, e3, e4⟩ := co i hi2
        rw [hi'] at e1; cases e1
        rw [hg] at e2; cases e2
        first | rw [e3, if_pos rfl] | rw [e4, if_pos rfl]
      · intro b hb hne
        obtain ⟨k, g', e1, e2, -, e3, e4⟩ := co b (Finset.mem_range.1 hb)
        have hkp : k ≠ (p : ℕ) := by
          rintro rfl
          exact hne ((List.getElem?_inj hil (find_nodup _)).1 (hi'.trans e1.symm)).symm
        first | rw [e3, if_neg hkp, zero_mul] | rw [e4, if_neg hkp, zero_mul]
      · intro hn; exact absurd (Finset.mem_range.2 hi2) hn
  · refine ⟨0, fun _ => rfl, ?_, ?_⟩
    all_goals
      unfold blkTerm
      rw [mul_zero]
      refine Finset.sum_eq_zero fun b hb => ?_
      obtain ⟨k, g', e1, e2, -, e3, e4⟩ := co b (Finset.mem_range.1 hb)
      have hkp : k ≠ (p : ℕ) := by
        rintro rfl
        obtain ⟨g2, f1, f2, -⟩ := Constr.find_row gen mask b _ e1
        rw [hg] at f1; cases f1
        exact hm f2
      first | rw [e3, if_neg hkp, zero_mul] | rw [e4, if_neg hkp, zero_mul]

end Verif.Opf
