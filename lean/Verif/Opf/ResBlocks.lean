import Verif.Opf.ResModel
import Verif.Opf.EconLemmas
import Verif.Opf.MarketProps

/-! # The blocks the reserve formulation adds to the model, in normal form -/

namespace Verif.Opf

open Verif.OpfModel Verif.Pips Verif.Network Verif.Cost Verif.OpfCost

variable {nb ng nl n nz : ℕ}

noncomputable section

/-- What the reserve formulation adds, per unit: provider `k` is the generator `jp k`; `hi` limits its reserve, `pm` is its capacity, `Z` are its shares in the zones, `lq` the
requirements of the zones, `cw` the costs. -/
structure RData (ng n nz : ℕ) where
  jp : Fin n → Fin ng
  hi : Fin n → EReal
  pm : Fin n → ℝ
  Z : Fin nz → Fin n → ℝ
  lq : Fin nz → ℝ
  cw : Fin n → ℝ

def RData.pgR (W : RData ng n nz) : LinBlk :=
  ⟨cooMat n (ng + n) (Constr.twoBlocks n (List.ofFn fun k => (W.jp k : ℕ)) ((List.range n).map (· + ng)) (List.replicate n 1) (List.replicate n 1)), [],
    List.ofFn fun k => ((W.pm k : ℝ) : EReal), ["Pg", "R"]⟩

def RData.req (W : RData ng n nz) : LinBlk :=
  ⟨⟨nz, n, fun i j => ((List.ofFn fun z => List.ofFn (W.Z z)).getD i []).getD j 0⟩, List.ofFn fun z => ((W.lq z : ℝ) : EReal), [], ["R"]⟩

def RData.cst (W : RData ng n nz) : CostBlk :=
  ⟨⟨⟨n, n, fun i j => if i = j then 1 else 0⟩, List.ofFn W.cw, none, none, none, none, none⟩, ["R"]⟩

def RData.vars (W : RData ng n nz) : VarVals := ⟨n, some [], some (List.replicate n ((0 : ℝ) : EReal)), some (List.ofFn W.hi)⟩

def RData.ops (W : RData ng n nz) : List Op :=
  [ .addVars "R" n (some []) (some (List.replicate n ((0 : ℝ) : EReal))) (some (List.ofFn W.hi)),
    .addLin "Pg_plus_R" W.pgR.A [] W.pgR.u ["Pg", "R"],
    .addLin "Rreq" W.req.A W.req.l [] ["R"],
    .addCosts "Rcost" W.cst.cp ["R"] ]

variable (W : RData ng n nz)

theorem RData.varBlocks_eq : varBlocks W.ops = [("R", n)] := rfl
theorem RData.varVals_eq : varVals W.ops = [("R", W.vars)] := rfl
theorem RData.linBlks_eq : linBlks W.ops = [("Pg_plus_R", W.pgR), ("Rreq", W.req)] := rfl
theorem RData.costBlks_eq : costBlks W.ops = [("Rcost", W.cst)] := rfl

theorem RData.vars_lo (k : Fin n) : VarVals.lo W.vars k = ((0 : ℝ) : EReal) := by
  have hn : 0 < n := k.pos
  obtain ⟨n', rfl⟩ : ∃ n', n = n' + 1 := ⟨n - 1, by omega⟩
  show (orDefault _ _ (some (((0 : ℝ) : EReal) :: List.replicate n' ((0 : ℝ) : EReal)))).getD _ _ = _
  rw [orDefault, ← List.replicate_succ]
  simp [k.isLt]

theorem RData.vars_hi (k : Fin n) : VarVals.hi W.vars k = W.hi k := by
  have hn : 0 < n := k.pos
  have : List.ofFn W.hi ≠ [] := by simp; omega
  obtain ⟨a, as, e⟩ := List.exists_cons_of_ne_nil this
  unfold VarVals.hi RData.vars
  simp only [e, orDefault]
  rw [← e]
  simp

theorem RData.pgR_lo (k : ℕ) : LinBlk.lo W.pgR k = ⊥ := by simp [LinBlk.lo, RData.pgR]

theorem RData.pgR_hi (k : Fin n) : LinBlk.hi W.pgR k = ((W.pm k : ℝ) : EReal) := by
  have hn : 0 < n := k.pos
  unfold LinBlk.hi RData.pgR
  simp only
  rw [if_neg (by simp; omega)]
  simp

theorem RData.req_lo (z : Fin nz) : LinBlk.lo W.req z = ((W.lq z : ℝ) : EReal) := by
  have hn : 0 < nz := z.pos
  unfold LinBlk.lo RData.req
  simp only
  rw [if_neg (by simp; omega)]
  simp

theorem RData.req_hi (z : ℕ) : LinBlk.hi W.req z = ⊤ := by simp [LinBlk.hi, RData.req]

section layout
variable (d : Case nb ng nl) (gc : Fin ng → CostRow ℝ) (lin : List Op) (hlin : varBlocks lin = [])

include hlin in
theorem RData.blocks : varBlocks (dcOps d ++ (lin ++ (pwlOps d.base gc ++ W.ops))) =
    ("Va", nb) :: ("Pg", ng) :: ((if nyOf gc = 0 then [] else [("y", nyOf gc)]) ++ [("R", n)]) := by
  rw [dcy_varBlocks d gc lin _ hlin, W.varBlocks_eq]

include hlin in
theorem RData.total : total (varBlocks (dcOps d ++ (lin ++ (pwlOps d.base gc ++ W.ops)))) = nb + ng + nyOf gc + n := by
  rw [W.blocks d gc lin hlin]
  split_ifs with h <;> simp [OpfModel.total, h] <;> ring

include hlin in
theorem RData.start_R : start (varBlocks (dcOps d ++ (lin ++ (pwlOps d.base gc ++ W.ops)))) "R" = nb + ng + nyOf gc ∧
    size (varBlocks (dcOps d ++ (lin ++ (pwlOps d.base gc ++ W.ops)))) "R" = n := by
  rw [W.blocks d gc lin hlin]
  split_ifs with h <;> simp [start, size, OpfModel.total, h]
  ring

include hlin in
theorem RData.subvec_R (x : ℕ → ℝ) :
    let vb := varBlocks (dcOps d ++ (lin ++ (pwlOps d.base gc ++ W.ops)))
    ∀ k < n, (subvec vb x (eff vb ["R"])).getD k 0 = x (nb + ng + nyOf gc + k) := by
  intro vb k hk
  obtain ⟨h1, h2⟩ := W.start_R d gc lin hlin
  simp only [eff, subvec, List.cons_ne_nil, if_false, List.flatMap_cons, List.flatMap_nil, List.append_nil]
  rw [part_getD _ _ _ _ (by rw [h2]; exact hk), h1]

include hlin in
theorem RData.subvec_PgR (x : ℕ → ℝ) :
    let vb := varBlocks (dcOps d ++ (lin ++ (pwlOps d.base gc ++ W.ops)))
    (∀ p : Fin ng, (subvec vb x (eff vb ["Pg", "R"])).getD p 0 = x (nb + p)) ∧
    (∀ k < n, (subvec vb x (eff vb ["Pg", "R"])).getD (ng + k) 0 = x (nb + ng + nyOf gc + k)) := by
  intro vb
  obtain ⟨h1, h2⟩ := W.start_R d gc lin hlin
  obtain ⟨-, h3, -, h4, -⟩ := dc_starts d (lin ++ (pwlOps d.base gc ++ W.ops))
  simp only [eff, subvec, List.cons_ne_nil, if_false, List.flatMap_cons, List.flatMap_nil, List.append_nil]
  constructor
  · intro p
    rw [List.getD_append _ _ _ _ (by rw [part_length, h4]; exact p.isLt), part_getD _ _ _ _ (by rw [h4]; exact p.isLt), h3]
  · intro j hj
    rw [List.getD_append_right _ _ _ _ (by rw [part_length, h4]; omega), part_length, h4, Nat.add_sub_cancel_left,
      part_getD _ _ _ _ (by rw [h2]; exact hj), h1]

include hlin in
/-- A row of `Pg_plus_R`. -/
theorem RData.pgR_row (x : ℕ → ℝ) (k : Fin n) :
    rowDot W.pgR.A k (subvec (varBlocks (dcOps d ++ (lin ++ (pwlOps d.base gc ++ W.ops)))) x
      (eff (varBlocks (dcOps d ++ (lin ++ (pwlOps d.base gc ++ W.ops)))) W.pgR.vs)) = x (nb + W.jp k) + x (nb + ng + nyOf gc + k) := by
  obtain ⟨f1, f2⟩ := W.subvec_PgR d gc lin hlin x
  have hcol : ∀ e ∈ Constr.twoBlocks n (List.ofFn fun k => (W.jp k : ℕ)) ((List.range n).map (· + ng)) (List.replicate n (1 : ℝ)) (List.replicate n 1),
      e.2.1 < ng + n := by
    rintro ⟨a, b, c⟩ he
    unfold Constr.twoBlocks at he
    have := (List.of_mem_zip (List.of_mem_zip he).2).1
    rw [List.mem_append, List.mem_ofFn, List.mem_map] at this
    rcases this with ⟨k, hk⟩ | ⟨k, hk, hk'⟩
    · have := (W.jp k).isLt; simp only at hk ⊢; omega
    · have := List.mem_range.1 hk; simp only at hk' ⊢; omega
  show rowDot (cooMat _ _ _) k _ = _
  rw [cooMat_row _ _ _ _ _ hcol, Constr.row_twoBlocks _ _ _ _ _ (by simp) (by simp) (by simp) (by simp) _ _ k.isLt]
  simp only [List.getElem_replicate, one_mul, List.getElem_ofFn, List.getElem_map, List.getElem_range, Fin.eta]
  rw [add_comm (k : ℕ) ng]
  exact congrArg₂ _ (f1 _) (f2 k k.isLt)

include hlin in
/-- A row of `Rreq`. -/
theorem RData.req_row (x : ℕ → ℝ) (z : Fin nz) :
    rowDot W.req.A z (subvec (varBlocks (dcOps d ++ (lin ++ (pwlOps d.base gc ++ W.ops)))) x
      (eff (varBlocks (dcOps d ++ (lin ++ (pwlOps d.base gc ++ W.ops)))) W.req.vs)) = ∑ k : Fin n, W.Z z k * x (nb + ng + nyOf gc + k) := by
  unfold rowDot RData.req
  simp only
  rw [Finset.sum_range]
  refine Finset.sum_congr rfl fun k _ => ?_
  rw [W.subvec_R d gc lin hlin x k k.isLt]
  simp

include hlin in
/-- A row of the cost block. -/
theorem RData.cst_row (x : ℕ → ℝ) (k : Fin n) :
    rowDot W.cst.cp.N k (subvec (varBlocks (dcOps d ++ (lin ++ (pwlOps d.base gc ++ W.ops)))) x
      (eff (varBlocks (dcOps d ++ (lin ++ (pwlOps d.base gc ++ W.ops)))) W.cst.vs)) = x (nb + ng + nyOf gc + k) := by
  unfold rowDot RData.cst
  simp only
  rw [Finset.sum_eq_single (k : ℕ)]
  · rw [if_pos rfl, one_mul, W.subvec_R d gc lin hlin x k k.isLt]
  · intro b _ hb
    rw [if_neg (Ne.symm hb), zero_mul]
  · intro h; exact absurd (Finset.mem_range.2 k.isLt) h

end layout

end

end Verif.Opf
