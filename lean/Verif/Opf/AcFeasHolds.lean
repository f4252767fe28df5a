import Verif.Opf.AcFeasLemmas

/-! # Operating points satisfy the rows for angle limits, capability curves and power factors -/

namespace Verif.Opf

open Verif.Index (BusRow GenRow BranchRow IsArgsort WF GenInService BranchInService Connected posOf orderOf)
open Verif.OpfModel Verif.Pips Verif.Network Verif.OpfCost

noncomputable section

section blocks
variable {nb ng nl : ℕ} (d : Case nb ng nl) (extra : List Op) (x : ℕ → ℝ)

/-- Angle differences within their limits satisfy the block of the AC problem. -/
theorem ac_ang_holds (E : Econ) (c' : Index.Case Tables) (hv : ∀ b ∈ angRows E c', b.f < nb ∧ b.t < nb)
    (hx : E.ignoreAng = false → ∀ b ∈ angRows E c', Constr.Limited b → Constr.AngleOk b x) : Holds (varBlocks (acOps d ++ extra)) (angOps E nb c') x := by
  obtain ⟨B, hB, hvs, -, -, -, hrow, -⟩ := ang_block E nb c' hv
  rw [hB]
  refine ⟨fun b hb => by simp [varVals] at hb, fun b hb i hi => ?_⟩
  have : b = ("ang", B) := by simpa [linBlks] using hb
  subst this
  obtain ⟨b, hb, h1, h2, h3⟩ := hrow i hi
  obtain ⟨h4, h5⟩ := hx h1 b hb h2
  obtain ⟨v1, v2⟩ := hv b hb
  have ef := ac_subvec_Va d extra x ⟨b.f, v1⟩
  have et := ac_subvec_Va d extra x ⟨b.t, v2⟩
  simp only at ef et
  simp only
  rw [h3.lo, h3.hi, h3.row, hvs, ef, et]
  constructor
  · split_ifs with h0
    · exact EReal.coe_le_coe_iff.2 (h4 (by simpa using h0))
    · exact bot_le
  · split_ifs with h0
    · exact EReal.coe_le_coe_iff.2 (h5 (by simpa using h0))
    · exact le_top

/-- Rows over `Pg`, `Qg`. -/
theorem pq_rows {gen : List Constr.Gen} (hlen : gen.length = ng) {mask : Constr.Gen → Bool} {va vb : Constr.Gen → ℝ} {lo hi : Constr.Gen → EReal} {B : LinBlk}
    (hB : PqBlock gen gen.length mask va vb lo hi B)
    (hx : ∀ (k : Fin ng) g, gen[(k : ℕ)]? = some g → mask g = true →
      lo g ≤ ((va g * x (2 * nb + k) + vb g * x (2 * nb + ng + k) : ℝ) : EReal) ∧ ((va g * x (2 * nb + k) + vb g * x (2 * nb + ng + k) : ℝ) : EReal) ≤ hi g) :
    ∀ i < B.A.rows, LinBlk.lo B i ≤ (rowDot B.A i (subvec (varBlocks (acOps d ++ extra)) x (eff (varBlocks (acOps d ++ extra)) B.vs)) : EReal) ∧
      (rowDot B.A i (subvec (varBlocks (acOps d ++ extra)) x (eff (varBlocks (acOps d ++ extra)) B.vs)) : EReal) ≤ LinBlk.hi B i := by
  intro i hi'
  rw [hB.rows] at hi'
  obtain ⟨k, hf⟩ : ∃ k, (NumPy.find (gen.map mask))[i]? = some k := ⟨_, List.getElem?_eq_getElem hi'⟩
  obtain ⟨g, hg, hm, -⟩ := Constr.find_row gen mask i _ hf
  obtain ⟨h1, h2, h3⟩ := hB.row i _ g hf hg
  have hk : k < ng := by rw [← hlen]; exact (List.getElem?_eq_some_iff.1 hg).1
  obtain ⟨e1, e2⟩ := ac_subvec_PQ d extra x ⟨_, hk⟩
  simp only at e1 e2
  rw [h2, h3, h1, hB.vs, hlen, e1, e2]
  exact hx ⟨_, hk⟩ g hg hm

end blocks

theorem half_le {base : ℝ} (hb : 0 < base) (h : Constr.Half) {p q : ℝ} (hw : h.a * p + h.b * q ≤ h.ub) :
    h.normalise.a * (p / base) + h.normalise.b * (q / base) ≤ h.normalise.ub / base := by
  simp only [Constr.Half.normalise]
  have e : h.a / Real.sqrt (h.a ^ 2 + h.b ^ 2) * (p / base) + h.b / Real.sqrt (h.a ^ 2 + h.b ^ 2) * (q / base) = (h.a * p + h.b * q) / Real.sqrt (h.a ^ 2 + h.b ^ 2) / base := by ring
  rw [e]
  exact div_le_div_of_nonneg_right (div_le_div_of_nonneg_right hw (Real.sqrt_nonneg _)) hb.le

/-- A load at its power factor is on its line. -/
theorem vl_line {base : ℝ} (hb : 0 < base) (g : Constr.Gen) (hv : Constr.VarLoad g) {p q : ℝ} (h1 : ∀ r, r ≠ 0 → Constr.PfLimit g r → p * r = q * g.pmin)
    (h2 : g.qmin ≠ 0 → g.qmax ≠ 0 → q = 0) :
    Real.sin (Constr.arctan2 (Constr.qlim base g) (g.pmin / base)) * (p / base) + -Real.cos (Constr.arctan2 (Constr.qlim base g) (g.pmin / base)) * (q / base) = 0 := by
  have hpm : g.pmin / base ≠ 0 := div_ne_zero hv.1.ne hb.ne'
  obtain ⟨hsn, hcs, hpos⟩ := Constr.sin_arctan2 (Constr.qlim base g) (g.pmin / base) hpm
  rw [hsn, hcs]
  set n := ‖(⟨g.pmin / base, Constr.qlim base g⟩ : ℂ)‖
  have key : Constr.qlim base g * (p / base) = g.pmin / base * (q / base) := by
    unfold Constr.qlim
    by_cases a : g.qmin = 0
    · have b : g.qmax ≠ 0 := hv.2.2.resolve_left (not_not.2 a)
      have := h1 _ b (Or.inl ⟨a, rfl⟩)
      simp only [a, zero_div, if_true, one_mul, mul_zero, add_zero]
      field_simp
      linarith
    · by_cases b : g.qmax = 0
      · have := h1 _ a (Or.inr ⟨b, rfl⟩)
        simp only [b, zero_div, if_true, one_mul, mul_zero, zero_add]
        field_simp
        linarith
      · simp [a, b, hb.ne', h2 a b]
  have e : Constr.qlim base g / n * (p / base) + -(g.pmin / base / n) * (q / base) = (Constr.qlim base g * (p / base) - g.pmin / base * (q / base)) / n := by ring
  rw [e, key, sub_self, zero_div]

section feasible
variable {c R t : Index.Case Tables} {z : Off} {c' : Index.Case Tables} {d : Case c'.bus.length c'.gen.length c'.branch.length}
  {u : Upd c'.bus.length c'.gen.length c'.branch.length} {bp : Fin c'.bus.length → ℕ} {gp : Fin c'.gen.length → ℕ} {lp : Fin c'.branch.length → ℕ}
  (B : Bridge c R z d u bp gp lp) {lim : Int} {K : Curves} (F : AcFeasible d.base lim K c t) (hm : AcModel K c) (hbd : 0 < d.base)
  (hv : ∀ b ∈ angRows K.ang c', b.f < c'.bus.length ∧ b.t < c'.bus.length)
  (gens : ∀ k : Fin c'.gen.length, ∃ g, c.gen[gp k]? = some g ∧ c'.gen[k].data = g.data)
  (ends : ∀ k : Fin c'.branch.length, ∃ l, c.branch[lp k]? = some l ∧ c'.branch[k].data = l.data ∧ c'.branch[k].f = (d.branch k).f.val ∧ c'.branch[k].t = (d.branch k).t.val)
  (extra : List Op) (x : ℕ → ℝ) (h1 : ∀ k : Fin c'.bus.length, x k = vaAt t (bp k)) (h3 : ∀ k : Fin c'.gen.length, x (2 * c'.bus.length + k) = pgAt t (gp k) / d.base)
  (h4 : ∀ k : Fin c'.gen.length, x (2 * c'.bus.length + c'.gen.length + k) = qgAt t (gp k) / d.base)

include B F in
theorem AcFeasible.angles (h : WF c) (hig : K.ang.ignoreAng = false)
    (ends : ∀ k : Fin c'.branch.length, ∃ l, c.branch[lp k]? = some l ∧ c'.branch[k].data = l.data ∧ c'.branch[k].f = (d.branch k).f.val ∧ c'.branch[k].t = (d.branch k).t.val)
    (x : ℕ → ℝ) (h1 : ∀ k : Fin c'.bus.length, x k = vaAt t (bp k)) : ∀ b ∈ angRows K.ang c', Constr.Limited b → Constr.AngleOk b x := by
  intro b hbm hlim
  obtain ⟨l', hl', rfl⟩ := List.mem_map.1 hbm
  obtain ⟨k, hk, rfl⟩ := List.mem_iff_getElem.1 hl'
  obtain ⟨l, e0, e1, e2, e3⟩ := ends ⟨k, hk⟩
  obtain ⟨l0, lt, h5, h6, ef, et, -, -, -, -, -, -, -, er, -, hon, -⟩ := F.brT B ⟨k, hk⟩
  rw [e0] at h5; cases h5
  obtain ⟨l1, h7, -, -, ⟨bf, hbf, hnf⟩, ⟨bt, hbt, hnt⟩, -⟩ := B.branch ⟨k, hk⟩
  rw [e0] at h7; cases h7
  -- angles by bus number
  classical
  let θ : ℕ → ℝ := fun n => (((t.bus.find? fun b => b.num == n)).map fun b => b.data.VA * (Real.pi / 180)).getD 0
  have hnd : (t.bus.map BusRow.num).Nodup := by
    have := congrArg (List.map BusRow.num) F.bus
    simp only [List.map_map] at this
    have e : (BusRow.num ∘ busInput : BusRow BusD → ℕ) = BusRow.num := by funext b; rfl
    rw [e] at this
    rw [this]
    exact h.busNodup
  have hθ : ∀ b ∈ t.bus, θ b.num = b.data.VA * (Real.pi / 180) := by
    intro b hb
    have : t.bus.find? (fun b' => b'.num == b.num) = some b := by
      cases hf : t.bus.find? (fun b' => b'.num == b.num) with
      | none => exact absurd (List.find?_eq_none.1 hf b hb) (by simp)
      | some b' =>
        have q1 := List.find?_some hf
        have q2 := List.mem_of_find?_eq_some hf
        rw [List.inj_on_of_nodup_map hnd q2 hb (by simpa using q1)]
    simp [θ, this]
  have hx : ∀ (j : Fin c'.bus.length) b0 n, c.bus[bp j]? = some b0 → b0.num = n → x j = θ n := by
    rintro j b0 n hj rfl
    obtain ⟨b, hb1, e⟩ := map_at F.bus _ _ hj
    have e1 : b.num = b0.num := by simpa [busInput] using congrArg BusRow.num e
    rw [h1, ← e1, hθ b (List.mem_of_getElem? hb1)]
    simp [vaAt, hb1]
  simp only [Fin.getElem_fin] at e1 e2 e3
  have key := F.angle hig lt (List.mem_of_getElem? h6) hon (by
    unfold Constr.Limited at hlim ⊢
    simp only [e1] at hlim
    simp only [er]
    exact hlim) θ hθ
  unfold Constr.AngleOk at key ⊢
  simp only [er, ef, et] at key
  simp only [e1, e2, e3, hx _ _ _ hbf hnf, hx _ _ _ hbt hnt]
  exact key

include B F hm hbd hv gens ends h1 h3 h4

/-- An operating point satisfies all rows for angle limits, capability curves and power factors. -/
theorem AcFeasible.holds (h : WF c) : Holds (varBlocks (acOps d ++ extra)) (curveOps d.base K c'.gen.length c' ++ angOps K.ang c'.bus.length c') x := by
  refine Holds.append ?_ (ac_ang_holds d extra x K.ang c' hv fun hig => F.angles B h hig ends x h1)
  obtain ⟨H, L, V, -, -, -, -, -, -, -, hops, hH, hL, hV⟩ := curve_blocks d.base K c' rfl
  have hlen : (K.rows c').length = c'.gen.length := by simp [Curves.rows]
  have row : ∀ (k : Fin c'.gen.length) g, (K.rows c')[(k : ℕ)]? = some g → ∃ g0 gt : GenRow GenD, g = K.row g0.data ∧ gt ∈ t.gen ∧ GenInService t gt ∧ K.pc1 g0.data.rest ≤ K.pc2 g0.data.rest ∧
      gt.data.PMIN = g0.data.PMIN ∧ gt.data.PMAX = g0.data.PMAX ∧ gt.data.QMIN = g0.data.QMIN ∧ gt.data.QMAX = g0.data.QMAX ∧ gt.data.rest = g0.data.rest ∧
      x (2 * c'.bus.length + k) = gt.data.PG / d.base ∧ x (2 * c'.bus.length + c'.gen.length + k) = gt.data.QG / d.base := by
    intro k g hg
    obtain ⟨g1, i1, i2⟩ := gens k
    obtain ⟨g0, gt, j1, j2, -, j3, j4, j5, j6, j7, j8, j9, j10, j11⟩ := F.genT B k
    rw [i1] at j1; cases j1
    refine ⟨g1, gt, ?_, List.mem_of_getElem? j2, j9, hm.curve g1 (List.mem_of_getElem? i1) j8, j3, j4, j5, j6, j7, by rw [h3, j10], by rw [h4, j11]⟩
    simp only [Curves.rows, List.getElem?_map, List.getElem?_eq_getElem k.isLt, Option.map_some, Option.some.injEq] at hg
    simp only [Fin.getElem_fin] at i2
    rw [← hg, i2]
  rw [hops]
  refine ⟨fun b hb => by simp [varVals] at hb, ?_⟩
  simp only [linBlks, List.filterMap_cons, List.filterMap_nil, List.mem_cons, List.not_mem_nil, or_false, forall_eq_or_imp, forall_eq]
  refine ⟨?_, ?_, ?_⟩
  · refine pq_rows d extra x hlen hH fun k g hg hmk => ⟨bot_le, EReal.coe_le_coe_iff.2 ?_⟩
    obtain ⟨g0, gt, rfl, a1, a2, a3, p1, p2, q1, q2, er, ep, eq⟩ := row k g hg
    rw [ep, eq]
    refine half_le hbd _ ?_
    have hcut := (capU_iff _).1 hmk
    have hlt : (K.row g0.data).pc1 < (K.row g0.data).pc2 := lt_of_le_of_ne a3 hcut.1
    rw [Constr.upperHalf_iff _ hlt]
    have := (F.curve gt a1 a2).1 (by
      unfold CutsUpper Constr.BelowUpper at hcut ⊢
      simp only [Curves.row, er, p2, q2] at hcut ⊢
      exact hcut)
    unfold Constr.BelowUpper at this ⊢
    simp only [Curves.row, er] at this ⊢
    exact this
  · refine pq_rows d extra x hlen hL fun k g hg hmk => ⟨bot_le, EReal.coe_le_coe_iff.2 ?_⟩
    obtain ⟨g0, gt, rfl, a1, a2, a3, p1, p2, q1, q2, er, ep, eq⟩ := row k g hg
    rw [ep, eq]
    refine half_le hbd _ ?_
    have hcut := (capL_iff _).1 hmk
    have hlt : (K.row g0.data).pc1 < (K.row g0.data).pc2 := lt_of_le_of_ne a3 hcut.1
    rw [Constr.lowerHalf_iff _ hlt]
    have := (F.curve gt a1 a2).2 (by
      unfold CutsLower Constr.AboveLower at hcut ⊢
      simp only [Curves.row, er, p2, q1] at hcut ⊢
      exact hcut)
    unfold Constr.AboveLower at this ⊢
    simp only [Curves.row, er] at this ⊢
    exact this
  · refine pq_rows d extra x hlen hV fun k g hg hmk => ?_
    obtain ⟨g0, gt, rfl, a1, a2, a3, p1, p2, q1, q2, er, ep, eq⟩ := row k g hg
    have hvl := (Constr.isVarLoad_iff _ hbd _).1 hmk
    obtain ⟨f1, f2⟩ := F.factor gt a1 a2 (by
      unfold Constr.VarLoad at hvl ⊢
      simp only [Curves.row, p1, p2, q1, q2] at hvl ⊢
      exact hvl)
    have hl := vl_line hbd _ hvl (p := gt.data.PG) (q := gt.data.QG) (fun r hr hpf => by
      have := f1 r hr (by
        unfold Constr.PfLimit at hpf ⊢
        simp only [Curves.row, q1, q2] at hpf ⊢
        exact hpf)
      rw [p1] at this
      exact this) (fun i j => f2 (by rw [q1]; exact i) (by rw [q2]; exact j))
    rw [ep, eq, hl]
    exact ⟨le_rfl, le_rfl⟩

end feasible

end

end Verif.Opf
