import Verif.Opf.DcModel
import Verif.Opf.SolveLemmas
import Verif.Network.Props

/-! # Lemmas: the rows of the DC formulation -/

open Matrix

namespace Verif.Opf

open Verif.OpfModel Verif.Pips Verif.Network

variable {nb ng nl : ℕ}

theorem vec_getD {n : ℕ} (v : Fin n → ℝ) (i : Fin n) (e : EReal) : (vec v).getD i e = ((v i : ℝ) : EReal) := by
  simp [vec]

theorem vec_length {n : ℕ} (v : Fin n → ℝ) : (vec v).length = n := by simp [vec]

theorem orDefault_len {n : ℕ} (d : EReal) (l : List EReal) (h : l.length = n) : (orDefault n d (some l)).length = n := by
  cases l with
  | nil => simp [orDefault]
  | cons a as => simpa [orDefault] using h

theorem orDefault_getD {n : ℕ} (d : EReal) (l : List EReal) (h : l.length = n) (i : ℕ) (hi : i < n) (e : EReal) :
    (orDefault n d (some l)).getD i e = l.getD i e := by
  cases l with
  | nil => simp at h; omega
  | cons a as => rfl

theorem part_getD (bs : List (String × ℕ)) (x : ℕ → ℝ) (v : String) (k : ℕ) (hk : k < size bs v) :
    (part bs x v).getD k 0 = x (start bs v + k) := by
  simp [part, hk]

theorem part_length (bs : List (String × ℕ)) (x : ℕ → ℝ) (v : String) : (part bs x v).length = size bs v := by simp [part]

/-- A row of `[M]` times one block of variables. -/
theorem rowDot_matOf {a b : ℕ} (M : Matrix (Fin a) (Fin b) ℝ) (i : Fin a) (y : List ℝ) :
    rowDot (matOf M) i y = ∑ j : Fin b, M i j * y.getD j 0 := by
  unfold rowDot matOf
  simp only
  rw [Finset.sum_range]
  exact Finset.sum_congr rfl fun j _ => by simp

/-- A row of `[M N]` times two vectors one after the other. -/
theorem rowDot_hcat {a b c : ℕ} (M : Matrix (Fin a) (Fin b) ℝ) (N : Matrix (Fin a) (Fin c) ℝ) (i : Fin a) (y z : List ℝ) (hy : y.length = b) :
    rowDot (hcat M N) i (y ++ z) = ∑ j : Fin b, M i j * y.getD j 0 + ∑ j : Fin c, N i j * z.getD j 0 := by
  unfold hcat
  rw [rowDot_matOf, Fin.sum_univ_add]
  congr 1
  · refine Finset.sum_congr rfl fun j _ => ?_
    rw [Matrix.of_apply, Fin.addCases_left, Fin.val_castAdd, List.getD_append _ _ _ _ (by have := j.isLt; omega)]
  · refine Finset.sum_congr rfl fun j _ => ?_
    rw [Matrix.of_apply, Fin.addCases_right, Fin.val_natAdd, List.getD_append_right _ _ _ _ (by omega)]
    congr 2
    omega

theorem negCg_sum (d : Case nb ng nl) (b : Fin nb) (p : Fin ng → ℝ) : ∑ g, d.negCg b g * p g = -∑ g with (d.gen g).bus = b, p g := by
  have : ∀ g, d.negCg b g = if (d.gen g).bus = b then -1 else 0 := by
    intro g
    unfold Case.negCg coo
    rw [Finset.sum_eq_single g]
    · simp
    · intro k _ hk
      rw [if_neg (fun h => hk h.2)]
    · intro h; exact absurd (Finset.mem_univ g) h
  rw [Finset.sum_filter, ← Finset.sum_neg_distrib]
  refine Finset.sum_congr rfl fun g _ => ?_
  rw [this]
  split_ifs <;> ring

section blocks
variable (d : Case nb ng nl) (extra : List Op)

theorem dc_varBlocks : varBlocks (dcOps d ++ extra) = ("Va", nb) :: ("Pg", ng) :: varBlocks extra := by
  simp [dcOps, varBlocks]

theorem dc_linBlocks : linBlocks (dcOps d ++ extra) = ("Pmis", nb) :: ("Pf", d.il.length) :: ("Pt", d.il.length) :: linBlocks extra := by
  simp [dcOps, linBlocks, linBlks, matOf, hcat]

theorem dc_starts : start (varBlocks (dcOps d ++ extra)) "Va" = 0 ∧ start (varBlocks (dcOps d ++ extra)) "Pg" = nb ∧
    size (varBlocks (dcOps d ++ extra)) "Va" = nb ∧ size (varBlocks (dcOps d ++ extra)) "Pg" = ng ∧
    start (linBlocks (dcOps d ++ extra)) "Pmis" = 0 ∧ start (linBlocks (dcOps d ++ extra)) "Pf" = nb ∧
    start (linBlocks (dcOps d ++ extra)) "Pt" = nb + d.il.length := by
  rw [dc_varBlocks, dc_linBlocks]
  simp [start, size, total]

theorem subvec_Va (x : ℕ → ℝ) (k : Fin nb) :
    (subvec (varBlocks (dcOps d ++ extra)) x (eff (varBlocks (dcOps d ++ extra)) ["Va"])).getD k 0 = x k := by
  obtain ⟨h1, -, h2, -⟩ := dc_starts d extra
  simp only [eff, subvec, List.cons_ne_nil, if_false, List.flatMap_cons, List.flatMap_nil, List.append_nil]
  rw [part_getD _ _ _ _ (by rw [h2]; exact k.isLt), h1, zero_add]

theorem Pmis_row (x : ℕ → ℝ) (b : Fin nb) :
    rowDot (hcat (Bbus d.branch) d.negCg) b (subvec (varBlocks (dcOps d ++ extra)) x (eff (varBlocks (dcOps d ++ extra)) ["Va", "Pg"])) =
      (Bbus d.branch *ᵥ fun j => x j) b - ∑ g with (d.gen g).bus = b, x (nb + g) := by
  obtain ⟨h1, h2, h3, h4, -⟩ := dc_starts d extra
  simp only [eff, subvec, List.cons_ne_nil, if_false, List.flatMap_cons, List.flatMap_nil, List.append_nil]
  rw [rowDot_hcat _ _ _ _ _ (by rw [part_length, h3]), sub_eq_add_neg, ← negCg_sum]
  congr 1
  · unfold mulVec dotProduct
    exact Finset.sum_congr rfl fun j _ => by rw [part_getD _ _ _ _ (by rw [h3]; exact j.isLt), h1, zero_add]
  · exact Finset.sum_congr rfl fun g _ => by rw [part_getD _ _ _ _ (by rw [h4]; exact g.isLt), h2]

theorem Pf_row (x : ℕ → ℝ) (k : Fin d.il.length) :
    rowDot (matOf d.BfIl) k (subvec (varBlocks (dcOps d ++ extra)) x (eff (varBlocks (dcOps d ++ extra)) ["Va"])) =
      (Bf d.branch *ᵥ fun j => x j) (d.il.get k) := by
  rw [rowDot_matOf]
  unfold mulVec dotProduct
  exact Finset.sum_congr rfl fun j _ => by rw [subvec_Va]; rfl

theorem Pt_row (x : ℕ → ℝ) (k : Fin d.il.length) :
    rowDot (matOf (-d.BfIl)) k (subvec (varBlocks (dcOps d ++ extra)) x (eff (varBlocks (dcOps d ++ extra)) ["Va"])) =
      -(Bf d.branch *ᵥ fun j => x j) (d.il.get k) := by
  rw [rowDot_matOf]
  unfold mulVec dotProduct
  rw [← Finset.sum_neg_distrib]
  exact Finset.sum_congr rfl fun j _ => by rw [subvec_Va, Matrix.neg_apply, neg_mul]; rfl

end blocks

theorem mem_il (d : Case nb ng nl) (l : Fin nl) : l ∈ d.il ↔ d.rateA l ≠ 0 ∧ d.rateA l < 10 ^ 10 := by
  simp [Case.il]

theorem il_nodup (d : Case nb ng nl) : d.il.Nodup := (List.nodup_finRange nl).filter _

/-- The bookkeeping of the assembled model gives the positions of the blocks. -/
theorem dc_idx {d : Case nb ng nl} {extra : List Op} {m : Model} (hm : OpfModel.run (dcOps d ++ extra) = some m)
    (g : Good (dcOps d ++ extra)) :
    m.var.i1 "Va" = some 0 ∧ m.var.i1 "Pg" = some nb ∧ m.lin.i1 "Pmis" = some 0 ∧ m.lin.i1 "Pf" = some nb ∧
      m.lin.i1 "Pt" = some (nb + d.il.length) := by
  have r := Rep.run hm
  obtain ⟨s1, s2, -, -, s3, s4, s5⟩ := dc_starts d extra
  have hl := (foldIdx_lookup (linBlocks (dcOps d ++ extra)) (by rw [linBlocks_names]; exact g.linNames)).1
  have hv := (foldIdx_lookup (varBlocks (dcOps d ++ extra)) g.varNames).1
  refine ⟨?_, ?_, ?_, ?_, ?_⟩
  · rw [r.var, (hv "Va" (by rw [dc_varBlocks]; simp [names])).1, s1]
  · rw [r.var, (hv "Pg" (by rw [dc_varBlocks]; simp [names])).1, s2]
  · rw [r.lin, (hl "Pmis" (by rw [dc_linBlocks]; simp [names])).1, s3]
  · rw [r.lin, (hl "Pf" (by rw [dc_linBlocks]; simp [names])).1, s4]
  · rw [r.lin, (hl "Pt" (by rw [dc_linBlocks]; simp [names])).1, s5]

/-- The solver's raw result behind the tables. -/
theorem dc_ofSolver {d : Case nb ng nl} {extra : List Op} {m : Model} (hm : OpfModel.run (dcOps d ++ extra) = some m)
    (g : Good (dcOps d ++ extra)) {H : Matrix (Fin m.var.total) (Fin m.var.total) ℝ} {C : Fin m.var.total → ℝ} {C0 : ℝ} {o : Opt} {solve : AnySolver}
    {x0 : Fin m.var.total → ℝ} {s : DcRes nb ng nl} (hs : dcopfSolver d m H C C0 o solve x0 = some s) :
    ∃ q r, linearOf m = some q ∧ pipsFull (qp H C) q o (solve _ _) x0 = some r ∧ s.success = r.eflag ∧ s.f = r.f + C0 ∧ s.x = pad r.x ∧
      s.tol = r.tol o ∧ s.dual = r.dual ∧
      (∀ b, s.VA b = pad r.x b * 180 / Real.pi) ∧ (∀ p, s.PG p = pad r.x (nb + p) * d.base) ∧
      (∀ l, s.PF l = ((Bf d.branch *ᵥ fun j => pad r.x j) l + Pfinj d.branch l) * d.base) ∧ (∀ l, s.PT l = -s.PF l) ∧
      (∀ l, s.QF l = 0 ∧ s.QT l = 0) ∧
      (∀ b : Fin nb, s.LAM_P b = (r.mu_u b - r.mu_l b) / d.base) ∧
      (∀ l, s.MU_SF l = atIl d.il (fun k => r.mu_u (nb + k) / d.base) l) ∧
      (∀ l, s.MU_ST l = atIl d.il (fun k => r.mu_u (nb + d.il.length + k) / d.base) l) ∧
      (∀ p, s.MU_PMIN p = r.lower (nb + p) / d.base) ∧ (∀ p, s.MU_PMAX p = r.upper (nb + p) / d.base) ∧
      s.mu_l = r.mu_l ∧ s.mu_u = r.mu_u := by
  obtain ⟨i1, i2, i3, i4, i5⟩ := dc_idx hm g
  unfold dcopfSolver at hs
  simp only [i1, i2, i3, i4, i5, Option.bind_eq_bind, Option.bind_eq_some_iff, Option.some.injEq, exists_eq_left'] at hs
  obtain ⟨q, hq, r, hr, rfl⟩ := hs
  refine ⟨q, r, hq, hr, rfl, rfl, rfl, rfl, rfl, ?_, ?_, ?_, fun _ => rfl, fun _ => ⟨rfl, rfl⟩, ?_, fun _ => rfl, fun _ => rfl, fun _ => rfl, fun _ => rfl, rfl, rfl⟩
  · intro b; simp
  · intro p; rfl
  · intro l; simp
  · intro b; simp

/-! ### Bounds of the blocks -/

theorem sane_real {a b : ℝ} (h : a ≤ b) (ha : Finite a) (hb : Finite b) : Sane (a : EReal) (b : EReal) :=
  ⟨EReal.coe_le_coe_iff.2 h, EReal.coe_ne_bot _, EReal.coe_ne_top _, fun _ => ⟨EReal.coe_lt_coe_iff.2 ha.1, EReal.coe_lt_coe_iff.2 hb.2⟩⟩

theorem sane_bot {u : EReal} (h : u ≠ ⊥) : Sane ⊥ u :=
  ⟨bot_le, h, by simp, by rintro ⟨a, b, ha, -⟩; exact absurd ha (EReal.bot_ne_coe a)⟩

theorem sane_free : Sane ⊥ ⊤ := sane_bot (by simp)

/-- Within real bounds, as real inequalities. -/
theorem within_upper {l : EReal} {u v t : ℝ} (h : Within l (u : EReal) v t) (hu : u < 10 ^ 10) : v < u + t := by
  have := h.1 (EReal.coe_lt_coe_iff.2 hu)
  rw [← EReal.coe_add, EReal.coe_lt_coe_iff] at this
  exact this

theorem within_lower {l v t : ℝ} {u : EReal} (h : Within (l : EReal) u v t) (hl : -10 ^ 10 < l) : l - t < v := by
  have := h.2 (EReal.coe_lt_coe_iff.2 hl)
  rw [EReal.coe_lt_coe_iff] at this
  linarith

theorem linLo_vec {n : ℕ} (A : Mat) (v : Fin n → ℝ) (u : List EReal) (vs : List String) (i : ℕ) (hi : i < n) :
    LinBlk.lo ⟨A, vec v, u, vs⟩ i = ((v ⟨i, hi⟩ : ℝ) : EReal) := by
  unfold LinBlk.lo
  have hne : vec v ≠ [] := fun h => by have := vec_length v; rw [h] at this; simp only [List.length_nil] at this; omega
  simp only [if_neg hne]
  exact vec_getD v ⟨i, hi⟩ _

theorem linHi_vec {n : ℕ} (A : Mat) (v : Fin n → ℝ) (l : List EReal) (vs : List String) (i : ℕ) (hi : i < n) :
    LinBlk.hi ⟨A, l, vec v, vs⟩ i = ((v ⟨i, hi⟩ : ℝ) : EReal) := by
  unfold LinBlk.hi
  have hne : vec v ≠ [] := fun h => by have := vec_length v; rw [h] at this; simp only [List.length_nil] at this; omega
  simp only [if_neg hne]
  exact vec_getD v ⟨i, hi⟩ _

theorem linLo_bot (A : Mat) (n : ℕ) (u : List EReal) (vs : List String) (i : ℕ) : LinBlk.lo ⟨A, List.replicate n ⊥, u, vs⟩ i = ⊥ := by
  unfold LinBlk.lo
  split_ifs
  · rfl
  · simp [List.getD_eq_getElem?_getD, List.getElem?_replicate]
    split_ifs <;> rfl

theorem varLo_vec {n : ℕ} (x u : Option (List EReal)) (v : Fin n → ℝ) (i : ℕ) (hi : i < n) :
    VarVals.lo ⟨n, x, some (vec v), u⟩ i = ((v ⟨i, hi⟩ : ℝ) : EReal) := by
  unfold VarVals.lo
  simp only [orDefault_getD _ _ (vec_length v) _ hi]
  exact vec_getD v ⟨i, hi⟩ _

theorem varHi_vec {n : ℕ} (x l : Option (List EReal)) (v : Fin n → ℝ) (i : ℕ) (hi : i < n) :
    VarVals.hi ⟨n, x, l, some (vec v)⟩ i = ((v ⟨i, hi⟩ : ℝ) : EReal) := by
  unfold VarVals.hi
  simp only [orDefault_getD _ _ (vec_length v) _ hi]
  exact vec_getD v ⟨i, hi⟩ _

theorem varLo_val (d : Case nb ng nl) (x u : Option (List EReal)) (i : ℕ) (hi : i < nb) :
    VarVals.lo ⟨nb, x, some d.val, u⟩ i = if d.isRef ⟨i, hi⟩ then ((d.vaRad ⟨i, hi⟩ : ℝ) : EReal) else ⊥ := by
  unfold VarVals.lo
  simp only [orDefault_getD _ _ (show d.val.length = nb by simp [Case.val]) _ hi]
  simp [Case.val, hi]

theorem varHi_vau (d : Case nb ng nl) (x l : Option (List EReal)) (i : ℕ) (hi : i < nb) :
    VarVals.hi ⟨nb, x, l, some d.vau⟩ i = if d.isRef ⟨i, hi⟩ then ((d.vaRad ⟨i, hi⟩ : ℝ) : EReal) else ⊤ := by
  unfold VarVals.hi
  simp only [orDefault_getD _ _ (show d.vau.length = nb by simp [Case.vau]) _ hi]
  simp [Case.vau, hi]

end Verif.Opf
