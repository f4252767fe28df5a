import Verif.Opf.UserModel
import Verif.Opf.ResInner

/-! # The blocks the user data add to the model -/

namespace Verif.Opf

open Verif.OpfModel Verif.Pips Verif.Network Verif.Cost Verif.OpfCost

variable {nb ng nl : ℕ}

noncomputable section

/-- The user data fit the standard variables. -/
structure UData.Fits (nb ng : ℕ) (W : UData) : Prop where
  A : W.A.rows ≠ 0 → W.A.cols = nb + ng + W.nz
  N : W.N.rows ≠ 0 → W.N.cols = nb + ng + W.nz
  Cw : W.N.rows ≠ 0 → W.dat.Cw.length = W.N.rows
  H : W.N.rows ≠ 0 → ∃ h, W.dat.H = some h ∧ h.rows = W.N.rows ∧ h.cols = W.N.rows
  fparm : W.N.rows ≠ 0 → W.dat.fparm = [] ∨ W.dat.fparm.length = W.N.rows

def UData.blk (W : UData) : LinBlk := ⟨W.A, W.dat.l, W.dat.u, W.vs⟩
def UData.cst (W : UData) : CostBlk := ⟨W.cp, W.vs⟩
def UData.vars (W : UData) : VarVals := ⟨W.nz, some W.dat.z0, some W.dat.zl, some W.dat.zu⟩

variable (W : UData)

theorem UData.varBlocks_eq : varBlocks W.ops = if W.nz = 0 then [] else [("z", W.nz)] := by
  unfold UData.ops
  split_ifs <;> rfl

theorem UData.varVals_eq : varVals W.ops = if W.nz = 0 then [] else [("z", W.vars)] := by
  unfold UData.ops
  split_ifs <;> rfl

theorem UData.linBlks_eq : linBlks W.ops = if W.A.rows = 0 then [] else [("usr", W.blk)] := by
  unfold UData.ops
  split_ifs <;> rfl

theorem UData.costBlks_eq : costBlks W.ops = if W.N.rows = 0 then [] else [("usr", W.cst)] := by
  unfold UData.ops
  split_ifs <;> rfl

theorem UData.vs_ne : W.vs ≠ [] := by
  unfold UData.vs
  split_ifs <;> simp

theorem UData.vs_nodup : W.vs.Nodup := by
  unfold UData.vs
  split_ifs <;> simp

/-- The value that column `j` of a user matrix is multiplied with. -/
def ux (nb ng ny : ℕ) (x : ℕ → ℝ) (j : ℕ) : ℝ := if j < nb + ng then x j else x (ny + j)

section layout
variable (d : Case nb ng nl) (gc : Fin ng → CostRow ℝ) (lin : List Op) (hlin : varBlocks lin = [])

include hlin in
theorem UData.blocks : varBlocks (dcOps d ++ (lin ++ (pwlOps d.base gc ++ W.ops))) =
    ("Va", nb) :: ("Pg", ng) :: ((if nyOf gc = 0 then [] else [("y", nyOf gc)]) ++ if W.nz = 0 then [] else [("z", W.nz)]) := by
  rw [dcy_varBlocks d gc lin _ hlin, W.varBlocks_eq]

include hlin in
theorem UData.total : total (varBlocks (dcOps d ++ (lin ++ (pwlOps d.base gc ++ W.ops)))) = nb + ng + nyOf gc + W.nz := by
  rw [W.blocks d gc lin hlin]
  split_ifs with h h' h' <;> simp [OpfModel.total, h, h'] <;> ring

include hlin in
theorem UData.start_z (hz : W.nz ≠ 0) : start (varBlocks (dcOps d ++ (lin ++ (pwlOps d.base gc ++ W.ops)))) "z" = nb + ng + nyOf gc ∧
    size (varBlocks (dcOps d ++ (lin ++ (pwlOps d.base gc ++ W.ops)))) "z" = W.nz := by
  rw [W.blocks d gc lin hlin, if_neg hz]
  split_ifs with h <;> simp [start, size, OpfModel.total, h]
  ring

include hlin in
theorem UData.width : widthOf (varBlocks (dcOps d ++ (lin ++ (pwlOps d.base gc ++ W.ops)))) (eff (varBlocks (dcOps d ++ (lin ++ (pwlOps d.base gc ++ W.ops)))) W.vs) =
    nb + ng + W.nz := by
  obtain ⟨-, -, h3, h4, -⟩ := dc_starts d (lin ++ (pwlOps d.base gc ++ W.ops))
  unfold eff
  rw [if_neg W.vs_ne]
  unfold UData.vs widthOf
  split_ifs with h
  · simp [h3, h4, h]
  · simp [h3, h4, (W.start_z d gc lin hlin h).2]
    ring

include hlin in
theorem UData.subvec_at (x : ℕ → ℝ) : ∀ j < nb + ng + W.nz,
    (subvec (varBlocks (dcOps d ++ (lin ++ (pwlOps d.base gc ++ W.ops)))) x (eff (varBlocks (dcOps d ++ (lin ++ (pwlOps d.base gc ++ W.ops)))) W.vs)).getD j 0 =
      ux nb ng (nyOf gc) x j := by
  intro j hj
  obtain ⟨h1, h2, h3, h4, -⟩ := dc_starts d (lin ++ (pwlOps d.base gc ++ W.ops))
  unfold eff
  rw [if_neg W.vs_ne]
  have hva : ∀ rest : List ℝ, j < nb → (part (varBlocks (dcOps d ++ (lin ++ (pwlOps d.base gc ++ W.ops)))) x "Va" ++ rest).getD j 0 = ux nb ng (nyOf gc) x j := by
    intro rest hj'
    rw [List.getD_append _ _ _ _ (by rw [part_length, h3]; exact hj'), part_getD _ _ _ _ (by rw [h3]; exact hj'), h1, zero_add, ux, if_pos (by omega)]
  have hpg : ∀ rest : List ℝ, ¬ j < nb → j < nb + ng → (part (varBlocks (dcOps d ++ (lin ++ (pwlOps d.base gc ++ W.ops)))) x "Va" ++
      (part (varBlocks (dcOps d ++ (lin ++ (pwlOps d.base gc ++ W.ops)))) x "Pg" ++ rest)).getD j 0 = ux nb ng (nyOf gc) x j := by
    intro rest hj' hj''
    rw [List.getD_append_right _ _ _ _ (by rw [part_length, h3]; omega), part_length, h3, List.getD_append _ _ _ _ (by rw [part_length, h4]; omega),
      part_getD _ _ _ _ (by rw [h4]; omega), h2, ux, if_pos hj'']
    congr 1; omega
  unfold UData.vs
  split_ifs with hz
  · simp only [subvec, List.flatMap_cons, List.flatMap_nil]
    by_cases hj' : j < nb
    · exact hva _ hj'
    · exact hpg _ hj' (by omega)
  · simp only [subvec, List.flatMap_cons, List.flatMap_nil]
    by_cases hj' : j < nb
    · exact hva _ hj'
    · by_cases hj'' : j < nb + ng
      · exact hpg _ hj' hj''
      · obtain ⟨h5, h6⟩ := W.start_z d gc lin hlin hz
        rw [List.getD_append_right _ _ _ _ (by rw [part_length, h3]; omega), part_length, h3, List.getD_append_right _ _ _ _ (by rw [part_length, h4]; omega), part_length, h4,
          List.append_nil, part_getD _ _ _ _ (by rw [h6]; omega), h5, ux, if_neg hj'']
        congr 1; omega

include hlin in
/-- A row of a matrix over the user variables. -/
theorem UData.row (M : Mat) (hM : M.cols = nb + ng + W.nz) (x : ℕ → ℝ) (i : ℕ) :
    rowDot M i (subvec (varBlocks (dcOps d ++ (lin ++ (pwlOps d.base gc ++ W.ops)))) x (eff (varBlocks (dcOps d ++ (lin ++ (pwlOps d.base gc ++ W.ops)))) W.vs)) =
      ∑ j ∈ Finset.range (nb + ng + W.nz), M.val i j * ux nb ng (nyOf gc) x j := by
  unfold rowDot
  rw [hM]
  refine Finset.sum_congr rfl fun j hj => ?_
  rw [W.subvec_at d gc lin hlin x j (Finset.mem_range.1 hj)]

end layout

/-- The value of a row of the cost matrix. -/
def UData.w (W : UData) (nb ng ny : ℕ) (x : ℕ → ℝ) (a : ℕ) : ℝ := ∑ j ∈ Finset.range (nb + ng + W.nz), W.N.val a j * ux nb ng ny x j

/-- The entries of `H`. -/
def UData.Hval (W : UData) (a b : ℕ) : ℝ := ((W.dat.H).map fun h => h.val a b).getD 0

/-- The user cost `1/2 w' H w + Cw' w`. -/
def UData.cost (W : UData) (nb ng ny : ℕ) (x : ℕ → ℝ) : ℝ :=
  1 / 2 * ∑ a ∈ Finset.range W.N.rows, ∑ b ∈ Finset.range W.N.rows, W.w nb ng ny x a * W.Hval a b * W.w nb ng ny x b +
    ∑ a ∈ Finset.range W.N.rows, W.dat.Cw.getD a 0 * W.w nb ng ny x a

/-- The parameters the user costs lead to. -/
structure UParams (W : UData) (nb ng ny t : ℕ) (P : Params) : Prop where
  nw : P.nw = W.N.rows
  nx : P.nx = t
  N : ∀ a < W.N.rows, ∀ x : ℕ → ℝ, ∑ j ∈ Finset.range t, P.N a j * x j = W.w nb ng ny x a
  Cw : ∀ a < W.N.rows, P.Cw a = W.dat.Cw.getD a 0
  H : ∀ a < W.N.rows, ∀ b < W.N.rows, P.H a b = W.Hval a b
  dd : ∀ i, P.dd i = 1
  rh : ∀ i, P.rh i = 0
  kk : ∀ i, P.kk i = 0
  mm : ∀ i, P.mm i = 1

/-- Convex user costs. -/
structure UData.Convex (W : UData) : Prop where
  symm : ∀ a < W.N.rows, ∀ b < W.N.rows, W.Hval a b = W.Hval b a
  psd : ∀ w : ℕ → ℝ, 0 ≤ ∑ a ∈ Finset.range W.N.rows, ∑ b ∈ Finset.range W.N.rows, w a * W.Hval a b * w b

section
variable {ny nx : ℕ} {P : Params} (hP : UParams W nb ng ny nx P)

include hP in
theorem UParams.convex (hc : W.Convex) : (userOf P nx).Convex := by
  have z : ∀ a b : Fin P.nw, (userOf P nx).H a b = W.Hval a b := fun a b => hP.H a (hP.nw ▸ a.isLt) b (hP.nw ▸ b.isLt)
  refine ⟨fun a b => by rw [z, z]; exact hc.symm a (hP.nw ▸ a.isLt) b (hP.nw ▸ b.isLt), fun w => ?_⟩
  have := hc.psd fun i => if h : i < P.nw then w ⟨i, h⟩ else 0
  rw [← hP.nw, Finset.sum_range] at this
  simp only [Finset.sum_range, Fin.is_lt, dif_pos, Fin.eta] at this
  simpa only [z] using this

include hP in
theorem UParams.offset : (userOf P nx).offset = 0 := by
  unfold UserCost.offset
  refine Finset.sum_eq_zero fun a _ => ?_
  rw [show (userOf P nx).rh a = 0 from hP.rh a]
  ring

include hP in
theorem UParams.value (x : ℕ → ℝ) : (userOf P nx).value (fun i => x i) = W.cost nb ng ny x := by
  have z : ∀ a b : Fin P.nw, (userOf P nx).H a b = W.Hval a b := fun a b => hP.H a (hP.nw ▸ a.isLt) b (hP.nw ▸ b.isLt)
  have zc : ∀ a : Fin P.nw, (userOf P nx).Cw a = W.dat.Cw.getD a 0 := fun a => hP.Cw a (hP.nw ▸ a.isLt)
  have e : ∀ a : Fin P.nw, (userOf P nx).mm a * (∑ j, (userOf P nx).N a j * x j - (userOf P nx).rh a) = W.w nb ng ny x a := by
    intro a
    rw [show (userOf P nx).mm a = 1 from hP.mm a, show (userOf P nx).rh a = 0 from hP.rh a, one_mul, sub_zero]
    have := hP.N a (hP.nw ▸ a.isLt) x
    rw [Finset.sum_range] at this
    exact this
  unfold UserCost.value UData.cost
  simp only [e, z, zc, ← hP.nw, Finset.sum_range]

include hP in
/-- `compute_cost` of the whole block. -/
theorem UParams.docF (x : ℕ → ℝ) : docF (costRows P 0 W.N.rows) x = W.cost nb ng ny x := by
  have hd : ∀ a ∈ Finset.range W.N.rows, docW (costRows P 0 W.N.rows) x a = W.w nb ng ny x a := by
    intro a ha
    have := hP.N a (Finset.mem_range.1 ha) x
    have h0 : ∀ j, (costRows P 0 W.N.rows).N a j = P.N a j := fun j => by simp [costRows]
    have hR : docR (costRows P 0 W.N.rows) x a = W.w nb ng ny x a := by
      unfold docR
      simp only [h0]
      rw [show (costRows P 0 W.N.rows).nx = nx from hP.nx, this]
      simp [costRows, hP.rh]
    have hk : ∀ i, (costRows P 0 W.N.rows).kk i = 0 := fun i => by simp [costRows, hP.kk]
    have hK : docK (costRows P 0 W.N.rows) x a = 0 := by
      unfold docK
      simp [hk]
    unfold docW docRR
    rw [hR, hK, hk]
    simp only [costRows, zero_add, hP.dd, hP.mm, neg_zero, if_true, one_mul, add_zero]
    split_ifs with h
    · linarith [h.1, h.2]
    · rfl
  unfold OpfModel.docF UData.cost
  have hn : (costRows P 0 W.N.rows).nw = W.N.rows := rfl
  rw [hn]
  congr 1
  · congr 1
    refine Finset.sum_congr rfl fun a ha => Finset.sum_congr rfl fun b hb => ?_
    rw [hd a ha, hd b hb]
    have : (costRows P 0 W.N.rows).H a b = W.Hval a b := by
      simp only [costRows, zero_add]
      exact hP.H a (Finset.mem_range.1 ha) b (Finset.mem_range.1 hb)
    rw [this]
  · refine Finset.sum_congr rfl fun a ha => ?_
    rw [hd a ha]
    simp only [costRows, zero_add, hP.Cw a (Finset.mem_range.1 ha)]

end

section
variable (d : Case nb ng nl) (gc : Fin ng → CostRow ℝ) (lin : List Op) (hlin : varBlocks lin = []) (hcl : costBlks lin = []) (hf : W.Fits nb ng)
  (m : Model) (hm : OpfModel.run (dcOps d ++ (lin ++ (pwlOps d.base gc ++ W.ops))) = some m)
  (g : Good (dcOps d ++ (lin ++ (pwlOps d.base gc ++ W.ops))))

include hcl in
theorem user_costBlks : costBlks (dcOps d ++ (lin ++ (pwlOps d.base gc ++ W.ops))) = if W.N.rows = 0 then [] else [("usr", W.cst)] := by
  have e1 : costBlks (dcOps d) = [] := by simp [dcOps, costBlks]
  have e2 : costBlks (pwlOps d.base gc) = [] := by unfold pwlOps; split_ifs <;> rfl
  rw [costBlks_append, costBlks_append, costBlks_append, e1, hcl, e2, W.costBlks_eq]
  rfl

include hlin hm g in
theorem user_total : m.var.total = nb + ng + nyOf gc + W.nz := by
  obtain ⟨-, -, ht, -⟩ := linearOf_spec hm g
  rw [ht, W.total d _ lin hlin]

include hlin hcl hf hm g in
theorem user_params : ∃ P, m.buildCostParams = some { m with params := some P } ∧ UParams W nb ng (nyOf gc) m.var.total P := by
  have hcb := user_costBlks W d gc lin hcl
  have ht := user_total W d gc lin hlin m hm g
  by_cases h0 : W.N.rows = 0
  · rw [if_pos h0] at hcb
    obtain ⟨P, h1, h2, h3, -, -, h6⟩ := C43_partial _ m hm g.varNames (by rw [hcb]; simp [names]) (by rw [hcb]; simp) (by rw [hcb]; simp)
    refine ⟨P, h1, ⟨?_, ?_, fun a ha => by omega, fun a ha => by omega, fun a ha => by omega, fun i => (h6 i).1, fun i => (h6 i).2.1, fun i => (h6 i).2.2.1,
      fun i => (h6 i).2.2.2⟩⟩
    · rw [h2]; unfold costBlocks; rw [hcb, h0]; rfl
    · rw [h3, W.total d _ lin hlin, ht]
  · rw [if_neg h0] at hcb
    obtain ⟨P, h1, h2, h3, h4, -, h6⟩ := C43_partial _ m hm g.varNames (by rw [hcb]; simp [names])
      (by
        rw [hcb]
        intro b hb
        rw [List.mem_singleton] at hb
        subst hb
        refine ⟨W.vs_nodup, ?_⟩
        rw [show (("usr", W.cst) : String × CostBlk).2.vs = W.vs from rfl, W.width d gc lin hlin]
        exact hf.N h0) (by rw [hcb]; simp [names])
    rw [hcb] at h4
    have hs0 : start (costBlocks (dcOps d ++ (lin ++ (pwlOps d.base gc ++ W.ops)))) "usr" = 0 := by
      unfold costBlocks; rw [hcb]; simp [start, OpfModel.total]
    have h4' := fun i (hi : i < W.N.rows) => h4 ("usr", W.cst) (by simp) i hi
    simp only [hs0] at h4'
    refine ⟨P, h1, ⟨?_, ?_, ?_, ?_, ?_, fun i => (h6 i).1, fun i => (h6 i).2.1, fun i => (h6 i).2.2.1, fun i => (h6 i).2.2.2⟩⟩
    · rw [h2]; unfold costBlocks; rw [hcb]; simp [OpfModel.total, UData.cst, UData.cp]
    · rw [h3, W.total d _ lin hlin, ht]
    · intro a ha x
      have e := (h4' a ha).N x
      rw [W.total d _ lin hlin, ← ht, zero_add] at e
      rw [e]
      exact W.row d gc lin hlin _ (hf.N h0) x a
    · intro a ha
      have e := (h4' a ha).Cw
      rw [zero_add] at e
      have e' : W.dat.Cw[a]? = some (P.Cw a) := e
      rw [List.getD_eq_getElem?_getD, e', Option.getD_some]
    · intro a ha b hb
      have e := (h4' a ha).H b hb
      obtain ⟨h, hh, -⟩ := hf.H h0
      simp only [zero_add] at e
      rw [e]
      simp [UData.cst, UData.cp, UData.Hval, hh]

include hlin hcl hf hm g in
/-- The user cost `results` reports. -/
theorem user_computeCost (hn : W.N.rows ≠ 0) {m' : Model} (hm' : m.buildCostParams = some m') (x : ℕ → ℝ) :
    ∃ mm, m'.computeCost x (some "usr") = some (W.cost nb ng (nyOf gc) x, mm) := by
  obtain ⟨P, h1, hP⟩ := user_params W d gc lin hlin hcl hf m hm g
  rw [h1] at hm'; cases hm'
  have hcb := user_costBlks W d gc lin hcl
  rw [if_neg hn] at hcb
  have hbs : costBlocks (dcOps d ++ (lin ++ (pwlOps d.base gc ++ W.ops))) = [("usr", W.N.rows)] := by
    unfold costBlocks; rw [hcb]; rfl
  have hidx := (foldIdx_lookup [("usr", W.N.rows)] (by simp [names])).1 "usr" (by simp [names])
  have hc : m.cost = foldIdx [("usr", W.N.rows)] := by rw [(Rep.run hm).cost, hbs]
  rw [← hc] at hidx
  simp only [start, size, OpfModel.total] at hidx
  obtain ⟨mm, e⟩ := (C45_value { m with params := some P } P rfl (fun i _ => by rw [hP.kk]) x).2 "usr" 0 W.N.rows (by simpa using hidx.2.2) (by simpa using hidx.1)
    (by simpa using hidx.2.1) (Nat.pos_of_ne_zero hn) (by rw [hP.nw]; omega)
  exact ⟨mm, by rw [e, UParams.docF W hP x]⟩

end

end

end Verif.Opf
