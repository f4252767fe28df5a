import Verif.Opf.Solve
import Verif.OpfModel.Props
import Verif.Pips.FullProps
import Mathlib.Data.List.GetD

/-! # Bounds and linear rows of an assembled model, block by block -/

namespace Verif.Opf

open Verif.OpfModel Verif.Pips

theorem total_cons (b : String × ℕ) (bs : List (String × ℕ)) : total (b :: bs) = b.2 + total bs := by simp [total]

theorem start_cons_self (b : String × ℕ) (bs : List (String × ℕ)) : start (b :: bs) b.1 = 0 := by simp [start, total]

theorem start_cons_ne (b : String × ℕ) (bs : List (String × ℕ)) (v : String) (h : b.1 ≠ v) : start (b :: bs) v = b.2 + start bs v := by
  simp [start, total, h]

/-- Every position belongs to a block. -/
theorem cover (bs : List (String × ℕ)) (hnd : (names bs).Nodup) (k : ℕ) (hk : k < total bs) :
    ∃ b ∈ bs, ∃ i < b.2, k = start bs b.1 + i := by
  induction bs generalizing k with
  | nil => simp [total] at hk
  | cons b bs ih =>
    rw [total_cons] at hk
    by_cases h : k < b.2
    · exact ⟨b, by simp, k, h, by rw [start_cons_self]; omega⟩
    · simp only [names, List.map_cons, List.nodup_cons] at hnd
      obtain ⟨c, hc, i, hi, e⟩ := ih hnd.2 (k - b.2) (by omega)
      refine ⟨c, by simp [hc], i, hi, ?_⟩
      rw [start_cons_ne]
      · omega
      · intro hbc
        exact hnd.1 (List.mem_map.2 ⟨c, hc, hbc.symm⟩)

theorem start_lt (bs : List (String × ℕ)) (hnd : (names bs).Nodup) (b : String × ℕ) (hb : b ∈ bs) (i : ℕ) (hi : i < b.2) :
    start bs b.1 + i < total bs := by
  have h1 := size_of_mem bs hnd b hb
  have h2 := start_size_le bs b.1 (List.mem_map.2 ⟨b, hb, rfl⟩)
  omega

/-- Entry `i` of block `b` in the concatenation of all blocks. -/
theorem flatMap_getD {α β : Type} (bs : List (String × α)) (f : α → List β) (n : α → ℕ) (hf : ∀ b ∈ bs, (f b.2).length = n b.2)
    (hnd : (names bs).Nodup) (b : String × α) (hb : b ∈ bs) (i : ℕ) (hi : i < n b.2) (d : β) :
    (bs.flatMap fun b => f b.2).getD (start (bs.map fun b => (b.1, n b.2)) b.1 + i) d = (f b.2).getD i d := by
  induction bs with
  | nil => simp at hb
  | cons c cs ih =>
    simp only [names, List.map_cons, List.nodup_cons] at hnd
    simp only [List.flatMap_cons, List.map_cons]
    rcases List.mem_cons.1 hb with rfl | hb'
    · have := start_cons_self (b.1, n b.2) (cs.map fun b => (b.1, n b.2))
      simp only at this
      rw [this, zero_add, List.getD_append _ _ _ _ (by rw [hf b (by simp)]; exact hi)]
    · have hne : c.1 ≠ b.1 := fun h => hnd.1 (List.mem_map.2 ⟨b, hb', h.symm⟩)
      rw [start_cons_ne (c.1, n c.2) _ _ hne, List.getD_append_right _ _ _ _ (by rw [hf c (by simp)]; simp only; omega), hf c (by simp)]
      have e : (c.1, n c.2).2 + start (cs.map fun b => (b.1, n b.2)) b.1 + i - n c.2 = start (cs.map fun b => (b.1, n b.2)) b.1 + i := by
        simp only; omega
      rw [e]
      exact ih (fun b hb => hf b (by simp [hb])) hnd.2 hb'

theorem varVals_blocks (h : List Op) : (varVals h).map (fun b => (b.1, b.2.n)) = varBlocks h := by
  simp only [varVals, varBlocks]
  induction h with
  | nil => rfl
  | cons op ops ih => cases op <;> simp [ih]

/-- Hypotheses on a history of calls: distinct names, fitting blocks, sensible bounds. -/
structure Good (h : List Op) : Prop where
  varNames : (names (varBlocks h)).Nodup
  linNames : (names (linBlks h)).Nodup
  varFits : ∀ b ∈ varVals h, VarFits b.2
  linFits : ∀ b ∈ linBlks h, LinFits (varBlocks h) b.2
  varSane : ∀ b ∈ varVals h, ∀ i < b.2.n, Sane (VarVals.lo b.2 i) (VarVals.hi b.2 i)
  linSane : ∀ b ∈ linBlks h, ∀ i < b.2.A.rows, Sane (LinBlk.lo b.2 i) (LinBlk.hi b.2 i)

theorem linBlocks_names (h : List Op) : names (linBlocks h) = names (linBlks h) := by simp [names, linBlocks]

/-- What is handed to the solver, block by block. -/
theorem linearOf_spec {h : List Op} {m : Model} (hm : OpfModel.run h = some m) (g : Good h) :
    ∃ q, linearOf m = some q ∧ m.var.total = total (varBlocks h) ∧ q.nA = total (linBlocks h) ∧
      (∀ b ∈ varVals h, ∀ i < b.2.n, q.xmin (start (varBlocks h) b.1 + i) = VarVals.lo b.2 i ∧
        q.xmax (start (varBlocks h) b.1 + i) = VarVals.hi b.2 i) ∧
      (∀ b ∈ linBlks h, ∀ i < b.2.A.rows,
        (∀ x : ℕ → ℝ, ∑ j ∈ Finset.range (total (varBlocks h)), q.A (start (linBlocks h) b.1 + i) j * x j =
          rowDot b.2.A i (subvec (varBlocks h) x (eff (varBlocks h) b.2.vs))) ∧
        q.l (start (linBlocks h) b.1 + i) = LinBlk.lo b.2 i ∧ q.u (start (linBlocks h) b.1 + i) = LinBlk.hi b.2 i) ∧
      q.OK m.var.total := by
  have r := Rep.run hm
  have ht : m.var.total = total (varBlocks h) := by rw [r.var, (foldIdx_basic _).1]
  have hA : m.lin.total = total (linBlocks h) := by rw [r.lin, (foldIdx_basic _).1]
  have hv := (C40_getv h m hm g.varNames).1
  have hnd : (names (varVals h)).Nodup := by rw [varVals_names]; exact g.varNames
  have hlc : ∃ lc, m.linearConstraints = some lc ∧ ∀ b ∈ linBlks h, ∀ i < b.2.A.rows,
        (∀ x : ℕ → ℝ, ∑ j ∈ Finset.range (total (varBlocks h)), (lc.map LinAcc.A).getD (fun _ _ => 0) (start (linBlocks h) b.1 + i) j * x j =
          rowDot b.2.A i (subvec (varBlocks h) x (eff (varBlocks h) b.2.vs))) ∧
        (lc.map LinAcc.l).getD (fun _ => ⊥) (start (linBlocks h) b.1 + i) = LinBlk.lo b.2 i ∧
        (lc.map LinAcc.u).getD (fun _ => ⊤) (start (linBlocks h) b.1 + i) = LinBlk.hi b.2 i := by
    by_cases h0 : 0 < total (linBlocks h)
    · obtain ⟨acc, h1, h2⟩ := C41_linear h m hm g.varNames g.linNames g.linFits h0
      refine ⟨some acc, h1, fun b hb i hi => ?_⟩
      obtain ⟨a1, a2, a3⟩ := h2 b hb i hi
      exact ⟨a1, a2, a3⟩
    · refine ⟨none, by rw [Model.linearConstraints, hA, if_pos (by omega)], fun b hb i hi => ?_⟩
      have := start_lt (linBlocks h) (by rw [linBlocks_names]; exact g.linNames) (b.1, b.2.A.rows) (List.mem_map.2 ⟨b, hb, rfl⟩) i hi
      omega
  obtain ⟨lc, hlc1, hlc2⟩ := hlc
  have hbd : ∀ b ∈ varVals h, ∀ i < b.2.n,
      ((varVals h).flatMap fun b => orDefault b.2.n ⊥ b.2.vl).getD (start (varBlocks h) b.1 + i) ⊥ = VarVals.lo b.2 i ∧
      ((varVals h).flatMap fun b => orDefault b.2.n ⊤ b.2.vu).getD (start (varBlocks h) b.1 + i) ⊤ = VarVals.hi b.2 i := by
    intro b hb i hi
    rw [← varVals_blocks]
    exact ⟨flatMap_getD (varVals h) (fun b => orDefault b.n ⊥ b.vl) VarVals.n (fun c hc => (g.varFits c hc).1) hnd b hb i hi ⊥,
      flatMap_getD (varVals h) (fun b => orDefault b.n ⊤ b.vu) VarVals.n (fun c hc => (g.varFits c hc).2) hnd b hb i hi ⊤⟩
  refine ⟨_, by unfold linearOf; simp only [hlc1, hv, Option.bind_eq_bind, Option.bind_some]; rfl, ht, hA, hbd, hlc2, ?_, ?_⟩
  · intro k hk
    rw [ht] at hk
    obtain ⟨b, hb, i, hi, rfl⟩ := cover _ g.varNames k hk
    rw [← varVals_blocks] at hb
    obtain ⟨b', hb', rfl⟩ := List.mem_map.1 hb
    obtain ⟨e1, e2⟩ := hbd b' hb' i hi
    simp only [e1, e2]
    exact g.varSane b' hb' i hi
  · intro k hk
    simp only [hA] at hk
    obtain ⟨b, hb, i, hi, rfl⟩ := cover (linBlocks h) (by rw [linBlocks_names]; exact g.linNames) k hk
    obtain ⟨b', hb', rfl⟩ := List.mem_map.1 hb
    obtain ⟨-, e1, e2⟩ := hlc2 b' hb' i hi
    simp only [e1, e2]
    exact g.linSane b' hb' i hi

theorem sum_pad {n : ℕ} (a : ℕ → ℝ) (x : Fin n → ℝ) : ∑ j : Fin n, a j * x j = ∑ j ∈ Finset.range n, a j * pad x j := by
  rw [Finset.sum_range]
  refine Finset.sum_congr rfl fun j _ => ?_
  simp [pad]

/-- On success every variable block is within its bounds and every linear block holds, up to the tolerance. -/
theorem solved_blocks {E I : Type} [Fintype E] [Fintype I] [DecidableEq E] [DecidableEq I] {h : List Op} {m : Model} (hm : OpfModel.run h = some m)
    (g : Good h) {q : Linear} (hq : linearOf m = some q) (c : Callbacks m.var.total E I) (o : Opt) (solve : AnySolver) (x0 : Fin m.var.total → ℝ)
    (r : Result m.var.total E I) (hr : pipsFull c q o (solve _ _) x0 = some r) (hs : r.eflag = true) :
    (∀ e, |c.g r.x e| < r.tol o) ∧ (∀ i, c.h r.x i < r.tol o) ∧
    (∀ b ∈ varVals h, ∀ i < b.2.n, Within (VarVals.lo b.2 i) (VarVals.hi b.2 i) (pad r.x (start (varBlocks h) b.1 + i)) (r.tol o)) ∧
    (∀ b ∈ linBlks h, ∀ i < b.2.A.rows, Within (LinBlk.lo b.2 i) (LinBlk.hi b.2 i)
      (rowDot b.2.A i (subvec (varBlocks h) (pad r.x) (eff (varBlocks h) b.2.vs))) (r.tol o)) := by
  obtain ⟨q', hq', ht, hA, hv, hl, hok⟩ := linearOf_spec hm g
  rw [hq] at hq'; cases hq'
  obtain ⟨h1, h2, h3, h4⟩ := C76_feasible c q o (solve _ _) x0 hok r hr hs
  refine ⟨h1, h2, ?_, ?_⟩
  · intro b hb i hi
    have hlt : start (varBlocks h) b.1 + i < m.var.total := by
      rw [ht]
      exact start_lt _ g.varNames (b.1, b.2.n) (by rw [← varVals_blocks]; exact List.mem_map.2 ⟨b, hb, rfl⟩) i hi
    have := h3 ⟨_, hlt⟩
    obtain ⟨e1, e2⟩ := hv b hb i hi
    simp only [e1, e2] at this
    simpa [pad, hlt] using this
  · intro b hb i hi
    have hlt : start (linBlocks h) b.1 + i < q.nA := by
      rw [hA]
      exact start_lt (linBlocks h) (by rw [linBlocks_names]; exact g.linNames) (b.1, b.2.A.rows) (List.mem_map.2 ⟨b, hb, rfl⟩) i hi
    obtain ⟨e0, e1, e2⟩ := hl b hb i hi
    have := h4 _ hlt
    have es : ∑ j ∈ Finset.range m.var.total, q.A (start (linBlocks h) b.1 + i) j * pad r.x j =
        ∑ j ∈ Finset.range (total (varBlocks h)), q.A (start (linBlocks h) b.1 + i) j * pad r.x j :=
      Finset.sum_congr (by rw [ht]) fun _ _ => rfl
    rw [e1, e2, sum_pad, es, e0] at this
    exact this

/-- A sum over all positions, block by block. -/
theorem sum_blocks (bs : List (String × ℕ)) (hnd : (names bs).Nodup) (F : ℕ → ℝ) :
    ∑ k ∈ Finset.range (total bs), F k = (bs.map fun b => ∑ i ∈ Finset.range b.2, F (start bs b.1 + i)).sum := by
  induction bs generalizing F with
  | nil => simp [total]
  | cons b bs ih =>
    simp only [names, List.map_cons, List.nodup_cons] at hnd
    rw [total_cons, Finset.sum_range_add, ih hnd.2 fun k => F (b.2 + k), List.map_cons, List.sum_cons, start_cons_self]
    simp only [zero_add]
    congr 2
    refine List.map_congr_left fun c hc => ?_
    rw [start_cons_ne b bs c.1 (fun h => hnd.1 (List.mem_map.2 ⟨c, hc, h.symm⟩))]
    exact Finset.sum_congr rfl fun i _ => by rw [add_assoc]

/-- Column `j` of the matrix handed to the solver, block by block. -/
theorem linearOf_column {h : List Op} {m : Model} (hm : OpfModel.run h = some m) (g : Good h) {q : Linear} (hq : linearOf m = some q)
    (F : ℝ → ℝ → ℝ) (j : ℕ) (hj : j < total (varBlocks h)) (y : ℕ → ℝ) :
    ∑ k ∈ Finset.range q.nA, F (q.A k j) (y k) = overRows F (varBlocks h) (linBlocks h) (linBlks h) j y := by
  obtain ⟨q', hq', ht, hA, hv, hl, hok⟩ := linearOf_spec hm g
  rw [hq] at hq'; cases hq'
  rw [hA, sum_blocks (linBlocks h) (by rw [linBlocks_names]; exact g.linNames), overRows]
  simp only [linBlocks, List.map_map]
  congr 1
  refine List.map_congr_left fun b hb => Finset.sum_congr rfl fun i hi => ?_
  have e := (hl b hb i (Finset.mem_range.1 hi)).1 (Pi.single j 1)
  rw [Finset.sum_eq_single j] at e
  · rw [Pi.single_eq_same, mul_one] at e
    simp only [linBlocks] at e
    simp only
    rw [e]; rfl
  · intro k _ hk
    rw [Pi.single_eq_of_ne hk, mul_zero]
  · intro hn; exact absurd (Finset.mem_range.2 hj) hn

end Verif.Opf
