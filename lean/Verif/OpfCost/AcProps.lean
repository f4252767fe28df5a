import Mathlib.Tactic.IntervalCases
import Verif.OpfCost.AcLemmas

/-!
# The AC OPF cost function (property C19 of `properties.jsonl`)
-/

namespace Verif.OpfCost

open Verif.Cost Verif.NumPy OpfModel

/-- Specification: the row of `gencost` with index `i`. -/
def AcData.row (d : AcData) (i : Nat) : CostRow ℝ := d.gencost.getD i ⟨0, 0, []⟩

/-- Specification: the variable a row of `gencost` is about: the active output of generator `i`, or the reactive output of generator `i - ng`. -/
def AcData.pos (d : AcData) (i : Nat) : Nat := if i < d.ng then d.iPg + i else d.iQg + (i - d.ng)

/-- Specification: cost of row `i` at the output in MW (MVAr); piecewise linear rows are represented by the `y` variables instead. -/
noncomputable def AcData.rowCost (d : AcData) (x : Nat → ℝ) (i : Nat) : ℝ :=
  if (d.row i).model = 2 then (rowPoly (d.row i)).eval (d.base * x (d.pos i)) else 0

/-- Specification: total cost. The user costs are those of `compute_cost` (property C45). -/
noncomputable def AcData.total (d : AcData) (x : Nat → ℝ) : ℝ :=
  ∑ i ∈ Finset.range d.gencost.length, d.rowCost x i + ∑ k ∈ Finset.range d.ny, x (d.iy + k) + (if d.user then d.P.f x else 0)

/-- A well-formed problem: at most two cost rows per generator, polynomial rows hold their coefficients, the three blocks lie inside `x` and
`Pg` and `Qg` do not overlap (property C38). -/
structure AcOk (d : AcData) : Prop where
  len : d.gencost.length ≤ 2 * d.ng
  poly : ∀ r ∈ d.gencost, r.model = 2 → PolyRow r
  hP : d.iPg + d.ng ≤ d.P.nx
  hQ : d.iQg + d.ng ≤ d.P.nx
  hy : d.iy + d.ny ≤ d.P.nx
  disj : d.iPg + d.ng ≤ d.iQg ∨ d.iQg + d.ng ≤ d.iPg

theorem mem_ipol (d : AcData) (i : Nat) : i ∈ d.ipol ↔ i < d.gencost.length ∧ (d.row i).model = 2 := by
  unfold AcData.ipol AcData.row
  rw [mem_find, List.getElem?_map, List.getD_eq_getElem?_getD]
  by_cases h : i < d.gencost.length
  · simp [h]
  · simp [h]

theorem row_get (d : AcData) (i : Nat) (h : i < d.gencost.length) : d.gencost[i]? = some (d.row i) := by
  unfold AcData.row
  rw [List.getD_eq_getElem?_getD, List.getElem?_eq_getElem h]; rfl

theorem xx_get (d : AcData) (x : Nat → ℝ) (i : Nat) (h : i < 2 * d.ng) : (d.xx x)[i]? = some (d.base * x (d.pos i)) := by
  unfold AcData.xx AcData.pos
  rw [List.getElem?_map]
  by_cases hi : i < d.ng
  · rw [List.getElem?_append_left (by simpa using hi)]
    simp [hi, mul_comm]
  · rw [List.getElem?_append_right (by simpa using Nat.le_of_not_lt hi)]
    have : i - d.ng < d.ng := by omega
    simp [hi, this, mul_comm]

theorem gather_rows (d : AcData) : gather d.gencost d.ipol = some (d.ipol.map d.row) :=
  gather_eq_map _ _ _ fun i hi => row_get d i ((mem_ipol d i).1 hi).1

theorem gather_xx (d : AcData) (h : AcOk d) (x : Nat → ℝ) : gather (d.xx x) d.ipol = some (d.ipol.map fun i => d.base * x (d.pos i)) :=
  gather_eq_map _ _ _ fun i hi => xx_get d x i (lt_of_lt_of_le ((mem_ipol d i).1 hi).1 h.len)

theorem ipol_poly (d : AcData) (h : AcOk d) (r : CostRow ℝ) (hr : r ∈ d.ipol.map d.row) : PolyRow r := by
  obtain ⟨i, hi, rfl⟩ := List.mem_map.1 hr
  obtain ⟨h1, h2⟩ := (mem_ipol d i).1 hi
  exact h.poly _ (List.mem_of_getElem? (row_get d i h1)) h2

theorem zipWith_map_map {α β γ : Type _} (f : α → β → γ) (g : Nat → α) (k : Nat → β) (l : List Nat) :
    List.zipWith f (l.map g) (l.map k) = l.map fun i => f (g i) (k i) := by
  induction l with
  | nil => rfl
  | cons a l ih => simp [ih]

theorem sum_ipol (d : AcData) (F : Nat → ℝ) :
    (d.ipol.map F).sum = ∑ i ∈ Finset.range d.gencost.length, if (d.row i).model = 2 then F i else 0 := by
  have hnd : d.ipol.Nodup := find_nodup _
  rw [← List.sum_toFinset F hnd, ← Finset.sum_filter]
  refine Finset.sum_congr ?_ fun _ _ => rfl
  ext i
  rw [List.mem_toFinset, mem_ipol]
  simp

theorem totcost_ipol (d : AcData) (h : AcOk d) (x : Nat → ℝ) :
    (do let rows ← gather d.gencost d.ipol; let p ← gather (d.xx x) d.ipol; let c ← totcost rows p; some c.sum : Option ℝ) =
      some (∑ i ∈ Finset.range d.gencost.length, d.rowCost x i) := by
  rw [gather_rows, gather_xx d h]
  simp only [Option.bind_eq_bind, Option.bind_some]
  rw [totcost_eq _ _ (by simp) fun r hr => Or.inr (ipol_poly d h r hr)]
  simp only [Option.bind_some]
  unfold AcData.rowCost
  rw [zipWith_map_map, ← sum_ipol, Option.some_inj]
  congr 1
  refine List.map_congr_left fun i hi => ?_
  unfold rowVal
  rw [if_neg]
  rw [((mem_ipol d i).1 hi).2]; decide

theorem ysum (d : AcData) (h : AcOk d) (x : Nat → ℝ) :
    (if d.ny > 0 then ∑ j ∈ Finset.range d.P.nx, d.ccost j * x j else 0) = ∑ k ∈ Finset.range d.ny, x (d.iy + k) := by
  have := block_sum (fun _ => 1) x d.iy d.ny d.P.nx h.hy
  simp only [one_mul] at this
  split_ifs with h0
  · exact this
  · have : d.ny = 0 := by omega
    simp [this]

/-- **C19** (value; the part that holds): the objective is the total cost whenever some row other than row 0 is polynomial, or none is.
Missing: the case of a single polynomial row at index 0, see `C19_negation`. -/
theorem C19_value_partial (d : AcData) (h : AcOk d) (x : Nat → ℝ)
    (hp : (∃ i, i ≠ 0 ∧ i < d.gencost.length ∧ (d.row i).model = 2) ∨ ∀ i, i < d.gencost.length → (d.row i).model ≠ 2) :
    d.f x = some (d.total x) := by
  unfold AcData.f AcData.polyPart AcData.total
  rcases hp with ⟨i, h0, hi, hm⟩ | hn
  · rw [if_pos, totcost_ipol d h]
    · simp only [Option.bind_eq_bind, Option.bind_some, ysum d h]
    · rw [List.any_eq_true]
      exact ⟨i, (mem_ipol d i).2 ⟨hi, hm⟩, by simpa using h0⟩
  · rw [if_neg]
    · simp only [Option.bind_eq_bind, Option.bind_some, ysum d h]
      rw [Finset.sum_eq_zero (s := Finset.range d.gencost.length)]
      intro i hi
      unfold AcData.rowCost
      rw [if_neg (hn i (Finset.mem_range.1 hi))]
    · rw [List.any_eq_true]
      rintro ⟨i, hi, -⟩
      exact hn i ((mem_ipol d i).1 hi).1 ((mem_ipol d i).1 hi).2

/-- **C19** (negation): if row 0 is the only polynomial row, its cost is missing from the objective. -/
theorem C19_negation (d : AcData) (h : AcOk d) (x : Nat → ℝ) (h0 : 0 < d.gencost.length)
    (hp : ∀ i, i < d.gencost.length → ((d.row i).model = 2 ↔ i = 0)) : d.f x = some (d.total x - d.rowCost x 0) := by
  unfold AcData.f AcData.polyPart AcData.total
  rw [if_neg]
  · simp only [Option.bind_eq_bind, Option.bind_some, ysum d h]
    rw [Finset.sum_eq_single (s := Finset.range d.gencost.length) 0]
    · rw [Option.some_inj]; ring
    · intro i hi hne
      unfold AcData.rowCost
      rw [if_neg]
      rw [hp i (Finset.mem_range.1 hi)]; exact hne
    · intro hn; exact absurd (Finset.mem_range.2 h0) hn
  · rw [List.any_eq_true]
    rintro ⟨i, hi, hne⟩
    have hi' := (mem_ipol d i).1 hi
    rw [(hp i hi'.1).1 hi'.2] at hne
    simp at hne

theorem dPgQg_spec (d : AcData) (h : AcOk d) (x : Nat → ℝ) (hk : d.kind ≠ .pyFloat ∨ ∃ i, i < d.gencost.length ∧ (d.row i).model = 2) :
    ∃ v, d.dPgQg x = some v ∧ ∀ i, i < 2 * d.ng → v.getD i 0 =
      if i < d.gencost.length ∧ (d.row i).model = 2 then d.base * (rowPoly (d.row i)).derivative.eval (d.base * x (d.pos i)) else 0 := by
  unfold AcData.dPgQg
  rw [gather_rows, gather_xx d h]
  simp only [Option.bind_eq_bind, Option.bind_some]
  rw [polycost_eq _ _ _ (by simp) fun r hr => ⟨(ipol_poly d h r hr).one, (ipol_poly d h r hr).data⟩]
  simp only [Option.bind_some]
  have hs : ∀ c, d.scaled c = some (c.map (d.base * ·)) := by
    intro c
    unfold AcData.scaled
    rw [if_neg]
    rintro ⟨hn, hf⟩
    rcases hk with hk | ⟨i, hi⟩
    · exact hk hf
    · have := (mem_ipol d i).2 hi
      rw [hn] at this; simp at this
  rw [hs]
  simp only [Option.bind_some]
  rw [zipWith_map_map]
  obtain ⟨v, hv, hlen, h1, h2⟩ := scatter_spec (List.replicate (2 * d.ng) (0 : ℝ)) d.ipol
    ((d.ipol.map fun i => (Polynomial.derivative^[1] (rowPoly (d.row i))).eval (d.base * x (d.pos i))).map (d.base * ·)) (find_nodup _)
    (by intro i hi; rw [List.length_replicate]; exact lt_of_lt_of_le ((mem_ipol d i).1 hi).1 h.len) (by simp)
  refine ⟨v, hv, fun i hi => ?_⟩
  rw [List.getD_eq_getElem?_getD]
  by_cases hm : i ∈ d.ipol
  · obtain ⟨k, hk1, hk2⟩ := List.getElem_of_mem hm
    have hk' : d.ipol[k]? = some i := by rw [List.getElem?_eq_getElem hk1, hk2]
    rw [h1 k i hk', if_pos ((mem_ipol d i).1 hm)]
    simp [hk']
  · rw [h2 i hm, if_neg (fun hc => hm ((mem_ipol d i).2 hc))]
    simp [hi]

/-- **C19** (gradient): the reported gradient is the derivative of the total cost in every direction `e`, at every point at which no user cost row is
exactly at the edge of its dead zone, for a symmetric `H`. Condition `hk`: see `C19_raises`. -/
theorem C19_gradient (d : AcData) (h : AcOk d) (x : Nat → ℝ)
    (hk : d.kind ≠ .pyFloat ∨ ∃ i, i < d.gencost.length ∧ (d.row i).model = 2)
    (hu : d.user = true → (∀ i, i < d.P.nw → 0 ≤ d.P.kk i) ∧ (∀ i, i < d.P.nw → d.P.kk i = 0 ∨ |d.P.r x i| ≠ d.P.kk i) ∧
      ∀ a b, a < d.P.nw → b < d.P.nw → d.P.H a b = d.P.H b a) :
    ∃ g, d.df x = some g ∧ ∀ e : Nat → ℝ,
      HasDerivAt (fun t => d.total fun j => x j + t * e j) (∑ j ∈ Finset.range d.P.nx, g j * e j) 0 := by
  obtain ⟨v, hv, hget⟩ := dPgQg_spec d h x hk
  refine ⟨_, by unfold AcData.df; rw [hv]; rfl, fun e => ?_⟩
  change HasDerivAt (fun t => d.total (along x e t)) _ 0
  have hrow : ∀ i, i ∈ Finset.range d.gencost.length → HasDerivAt (fun t => d.rowCost (along x e t) i) (v.getD i 0 * e (d.pos i)) 0 := by
    intro i hi
    have hi := Finset.mem_range.1 hi
    rw [hget i (lt_of_lt_of_le hi h.len)]
    unfold AcData.rowCost
    by_cases hm : (d.row i).model = 2
    · simp only [hm, hi, and_self, if_true]
      have h1 := (along_deriv x e (d.pos i)).const_mul d.base
      have h2 := (rowPoly (d.row i)).hasDerivAt (d.base * along x e 0 (d.pos i))
      have h3 := h2.comp (0 : ℝ) h1
      rw [along_zero] at h3
      exact h3.congr_deriv (by ring)
    · simp only [hm, and_false, if_false, zero_mul]
      exact hasDerivAt_const _ _
  have hy : ∀ k, k ∈ Finset.range d.ny → HasDerivAt (fun t => along x e t (d.iy + k)) (e (d.iy + k)) 0 :=
    fun k _ => along_deriv x e _
  have huser : HasDerivAt (fun t => if d.user then d.P.f (along x e t) else 0)
      (if d.user then ∑ j ∈ Finset.range d.P.nx, AAHwC d.P x j * e j else 0) 0 := by
    by_cases hd : d.user = true
    · simp only [hd, if_true]
      obtain ⟨a, b, c⟩ := hu hd
      exact userf_deriv d.P x e a b c
    · simp only [hd, if_false]
      exact hasDerivAt_const _ _
  have hall := ((HasDerivAt.fun_sum hrow).add (HasDerivAt.fun_sum hy)).add huser
  unfold AcData.total
  refine hall.congr_deriv ?_
  have s1 : ∑ j ∈ Finset.range d.P.nx, d.place v j * e j = ∑ i ∈ Finset.range d.gencost.length, v.getD i 0 * e (d.pos i) := by
    have hsplit : ∀ j, d.place v j =
        (if d.iPg ≤ j ∧ j < d.iPg + d.ng then (fun k => v.getD k 0) (j - d.iPg) else 0) +
        (if d.iQg ≤ j ∧ j < d.iQg + d.ng then (fun k => v.getD (d.ng + k) 0) (j - d.iQg) else 0) := by
      intro j
      unfold AcData.place
      have := h.disj
      split_ifs <;> first | omega | simp
    simp only [hsplit, add_mul, Finset.sum_add_distrib]
    rw [block_sum (fun k => v.getD k 0) e _ _ _ h.hP, block_sum (fun k => v.getD (d.ng + k) 0) e _ _ _ h.hQ]
    have hext : ∑ i ∈ Finset.range d.gencost.length, v.getD i 0 * e (d.pos i) = ∑ i ∈ Finset.range (2 * d.ng), v.getD i 0 * e (d.pos i) := by
      refine Finset.sum_subset (Finset.range_subset_range.2 h.len) fun i hi hn => ?_
      rw [hget i (Finset.mem_range.1 hi), if_neg, zero_mul]
      rintro ⟨hc, -⟩
      exact hn (Finset.mem_range.2 hc)
    rw [hext, two_mul, Finset.sum_range_add]
    congr 1
    · refine Finset.sum_congr rfl fun i hi => ?_
      have := Finset.mem_range.1 hi
      simp [AcData.pos, this]
    · refine Finset.sum_congr rfl fun i hi => ?_
      simp [AcData.pos]
  have s2 : ∑ j ∈ Finset.range d.P.nx, d.ccost j * e j = ∑ k ∈ Finset.range d.ny, e (d.iy + k) := by
    have := block_sum (fun _ => 1) e d.iy d.ny d.P.nx h.hy
    simpa [AcData.ccost] using this
  simp only [add_mul, Finset.sum_add_distrib, s1, s2]
  congr 1
  split_ifs <;> simp

/-- **C19** (failure): without any polynomial cost row and with `baseMVA` a Python float, evaluating the cost function raises. -/
theorem C19_raises (d : AcData) (x : Nat → ℝ) (hn : ∀ i, i < d.gencost.length → (d.row i).model ≠ 2) (hk : d.kind = .pyFloat) :
    d.df x = none := by
  have h0 : d.ipol = [] := by
    rw [List.eq_nil_iff_forall_not_mem]
    intro i hi
    exact hn i ((mem_ipol d i).1 hi).1 ((mem_ipol d i).1 hi).2
  unfold AcData.df AcData.dPgQg
  simp [h0, gather, polycost, AcData.scaled, hk]

/-! Non-vacuity: two generators, quadratic and linear active power costs, no user costs; and the same with only row 0 polynomial. -/

def exP : Params := ⟨0, 6, fun _ _ => 0, fun _ => 0, fun _ _ => 0, fun _ => 1, fun _ => 0, fun _ => 0, fun _ => 1⟩

noncomputable def exAc (m : Nat) : AcData := ⟨100, .pyFloat, 2, [⟨2, 3, [1, 2, 3, 0]⟩, ⟨m, 2, [5, 7, 6, 9]⟩], 0, 2, 4, 1, false, exP⟩

theorem exAc_ok (m : Nat) : AcOk (exAc m) where
  len := by simp [exAc]
  poly := by
    intro r hr hm
    simp only [exAc, List.mem_cons, List.not_mem_nil, or_false] at hr
    rcases hr with rfl | rfl
    · exact ⟨rfl, by simp, by simp⟩
    · exact ⟨hm, by simp, by simp⟩
  hP := by simp [exAc, exP]
  hQ := by simp [exAc, exP]
  hy := by simp [exAc, exP]
  disj := by simp [exAc]

example (x : Nat → ℝ) : (exAc 2).f x = some ((exAc 2).total x) :=
  C19_value_partial _ (exAc_ok 2) x (Or.inl ⟨1, by decide, by simp [exAc], by simp [exAc, AcData.row]⟩)

example : ∃ x, (exAc 1).f x ≠ some ((exAc 1).total x) := by
  refine ⟨fun _ => 0, ?_⟩
  rw [C19_negation (exAc 1) (exAc_ok 1) _ (by simp [exAc])]
  · simp [AcData.rowCost, AcData.row, exAc, rowPoly, Finset.sum_range_succ]
  · intro i hi
    have : i < 2 := by simpa [exAc] using hi
    interval_cases i <;> simp [exAc, AcData.row]

example (x : Nat → ℝ) : ∃ g, (exAc 1).df x = some g :=
  (C19_gradient (exAc 1) (exAc_ok 1) x (Or.inr ⟨0, by simp [exAc], by simp [exAc, AcData.row]⟩) (by simp [exAc])).imp fun _ h => h.1

end Verif.OpfCost
