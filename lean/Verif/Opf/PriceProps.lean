import Verif.Opf.ShadowProps
import Verif.Opf.EquilProps
import Verif.Opf.PriceSpec
import Mathlib.Algebra.BigOperators.Field

/-!
# C99: prices differ between buses only because limits bind

C78 in the tables of the caller.
-/

namespace Verif.Opf

open Verif.Index (BusRow GenRow BranchRow IsArgsort WF GenInService BranchInService Connected)
open Verif.OpfModel Verif.Pips Verif.Network Verif.Cost Verif.OpfCost

/-! ### Lemmas -/

/-- Sums over the branches in service are sums over the internal rows. -/
theorem Bridge.onSum_eq {c R : Index.Case Tables} {z : Off} {nb ng nl : ℕ} {d : Case nb ng nl} {u : Upd nb ng nl} {bp : Fin nb → ℕ} {gp : Fin ng → ℕ} {lp : Fin nl → ℕ}
    (B : Bridge c R z d u bp gp lp) (F : BranchRow BrD → ℝ) (w : Fin nl → ℝ)
    (hw : ∀ k l, c.branch[lp k]? = some l → R.branch[lp k]? = some { l with data := u.branch k l.data } → F { l with data := u.branch k l.data } = w k) :
    onSum R F = ∑ k, w k := by
  unfold onSum
  refine sum_rows R.branch lp B.lInj _ _ ?_ ?_
  · intro k
    obtain ⟨l, h1, h2, h3, -⟩ := B.branch k
    refine ⟨_, h3, ?_⟩
    have hin : BranchInService R { l with data := u.branch k l.data } := (B.brIn_iff (l := l) rfl rfl rfl).2 h2
    rw [if_pos hin]
    exact hw k l h1 h3
  · intro i l hi hk
    obtain ⟨l0, e1, e2, e3, e4, e5, -⟩ := B.branch_at hi
    refine if_neg fun hh => ?_
    obtain ⟨k, e, -⟩ := e5 ((B.brIn_iff e2 e3 e4).1 hh)
    exact hk k e

/-- Sum over the rows of a table picked by distinct indices. -/
theorem sum_index {n : ℕ} (L : List ℕ) (hnd : L.Nodup) (hlt : ∀ k ∈ L, k < n) (G : ℕ → ℝ) :
    ∑ i ∈ Finset.range L.length, G i = ∑ k : Fin n, if (k : ℕ) ∈ L then G (L.idxOf (k : ℕ)) else 0 := by
  rw [← Finset.sum_filter]
  refine Finset.sum_bij' (fun i hi => ⟨L[i]'(Finset.mem_range.1 hi), hlt _ (List.getElem_mem _)⟩) (fun k _ => L.idxOf (k : ℕ)) ?_ ?_ ?_ ?_ ?_
  · intro i hi
    simp
  · intro k hk
    rw [Finset.mem_filter] at hk
    exact Finset.mem_range.2 (List.idxOf_lt_length_iff.2 hk.2)
  · intro i hi
    exact hnd.idxOf_getElem i (Finset.mem_range.1 hi)
  · intro k hk
    rw [Finset.mem_filter] at hk
    exact Fin.ext (List.getElem_idxOf (List.idxOf_lt_length_iff.2 hk.2))
  · intro i hi
    simp only
    rw [hnd.idxOf_getElem i (Finset.mem_range.1 hi)]

theorem onSum_congr (t : Index.Case Tables) (F G : BranchRow BrD → ℝ) (h : ∀ l ∈ t.branch, BranchInService t l → F l = G l) : onSum t F = onSum t G := by
  unfold onSum
  refine congrArg List.sum (List.map_congr_left fun l hl => ?_)
  split_ifs with hi
  · exact h l hl hi
  · rfl

theorem onSum_zero (t : Index.Case Tables) : onSum t (fun _ => 0) = 0 := by
  unfold onSum
  simp

theorem onSum_add (t : Index.Case Tables) (F G : BranchRow BrD → ℝ) : onSum t (fun l => F l + G l) = onSum t F + onSum t G := by
  unfold onSum
  rw [← List.sum_map_add]
  refine congrArg List.sum (List.map_congr_left fun l _ => ?_)
  split_ifs <;> ring

theorem onSum_mul (t : Index.Case Tables) (a : ℝ) (F : BranchRow BrD → ℝ) : onSum t (fun l => a * F l) = a * onSum t F := by
  unfold onSum
  rw [← List.sum_map_mul_left]
  refine congrArg List.sum (List.map_congr_left fun l _ => ?_)
  split_ifs <;> ring

/-- Sums over buses and branches may be exchanged. -/
theorem onSum_list (t : Index.Case Tables) (a : BusRow BusD → ℝ) (G : BusRow BusD → BranchRow BrD → ℝ) (bs : List (BusRow BusD)) :
    onSum t (fun l => (bs.map fun b => a b * G b l).sum) = (bs.map fun b => a b * onSum t (G b)).sum := by
  induction bs with
  | nil => simpa using onSum_zero t
  | cons b bs ih =>
    simp only [List.map_cons, List.sum_cons]
    rw [onSum_add, onSum_mul, ih]

theorem sum_map_sub' {α : Type} (L : List α) (f g : α → ℝ) : (L.map f).sum - (L.map g).sum = (L.map fun x => f x - g x).sum := by
  induction L with
  | nil => simp
  | cons x L ih =>
    simp only [List.map_cons, List.sum_cons]
    rw [← ih]
    ring

theorem abs_sum_map_le {α : Type} (L : List α) (f g : α → ℝ) (h : ∀ x ∈ L, |f x| ≤ g x) : |(L.map f).sum| ≤ (L.map g).sum := by
  induction L with
  | nil => simp
  | cons x L ih =>
    simp only [List.map_cons, List.sum_cons]
    exact (abs_add_le _ _).trans (add_le_add (h x List.mem_cons_self) (ih fun y hy => h y (List.mem_cons_of_mem _ hy)))

/-- The bus with a given number. -/
theorem pick (bs : List (BusRow BusD)) (hnd : (bs.map BusRow.num).Nodup) (b : BusRow BusD) (hb : b ∈ bs) (a : BusRow BusD → ℝ) :
    (bs.map fun b' => a b' * if b.num = b'.num then 1 else 0).sum = a b := by
  induction bs with
  | nil => cases hb
  | cons x bs ih =>
    rw [List.map_cons, List.nodup_cons] at hnd
    rw [List.map_cons, List.sum_cons]
    rcases List.mem_cons.1 hb with rfl | hb
    · rw [if_pos rfl, mul_one]
      have : (bs.map fun b' => a b' * if b.num = b'.num then 1 else 0) = bs.map fun _ => (0 : ℝ) := by
        refine List.map_congr_left fun b' hb' => ?_
        rw [if_neg fun e => hnd.1 (List.mem_map.2 ⟨b', hb', e.symm⟩), mul_zero]
      rw [this]
      simp
    · rw [if_neg fun e => hnd.1 (List.mem_map.2 ⟨b, hb, e⟩), mul_zero, zero_add]
      exact ih hnd.2 hb

theorem Bridge.nums {c R : Index.Case Tables} {z : Off} {nb ng nl : ℕ} {d : Case nb ng nl} {u : Upd nb ng nl} {bp : Fin nb → ℕ} {gp : Fin ng → ℕ} {lp : Fin nl → ℕ}
    (B : Bridge c R z d u bp gp lp) : R.bus.map BusRow.num = c.bus.map BusRow.num := by
  refine List.ext_getElem (by simp [B.busLen]) fun i h1 h2 => ?_
  rw [List.length_map] at h1
  obtain ⟨b0, e1, e2, -⟩ := B.bus_at (List.getElem?_eq_getElem h1)
  rw [List.getElem_map, List.getElem_map, e2]
  obtain ⟨_, e3⟩ := List.getElem?_eq_some_iff.1 e1
  rw [e3]

section
variable {srt : List ℕ → List ℕ} {base : ℝ} {E : Econ} {o : Opt} {solve : AnySolver} {c : Index.Case Tables} {r : Ret} {c' : Index.Case Tables}
    {d : Case c'.bus.length c'.gen.length c'.branch.length} {m : Model} {s : DcRes c'.bus.length c'.gen.length c'.branch.length}
    {p : PostMu c'.gen.length c'.branch.length} {bp : Fin c'.bus.length → ℕ} {gp : Fin c'.gen.length → ℕ} {lp : Fin c'.branch.length → ℕ}
    (R : EconRun srt base E o solve c r c' d m s p bp gp lp)

include R

open Classical in
/-- The rows of the angle limits, seen from an angle. -/
theorem EconRun.ang_rows (F : ℝ → ℝ → ℝ) (hF : ∀ y, F 0 y = 0) (j : Fin c'.bus.length) (y : ℕ → ℝ) : ∃ pos : Fin c'.branch.length → ℕ,
    (∀ k v, p.angmin k v = if AngLimited E c'.branch[k] then s.mu_l (pos k) * Real.pi / 180 else v) ∧
    (∀ k v, p.angmax k v = if AngLimited E c'.branch[k] then s.mu_u (pos k) * Real.pi / 180 else v) ∧
    overRows F (varBlocks (dcOps d ++ (angOps E c'.bus.length c' ++ (pwlOps d.base (fun k : Fin c'.gen.length => pwl1Row (costAt c' k)) ++ []))))
      (linBlocks (dcOps d ++ (angOps E c'.bus.length c' ++ (pwlOps d.base (fun k : Fin c'.gen.length => pwl1Row (costAt c' k)) ++ []))))
      (linBlks (angOps E c'.bus.length c' ++ (pwlOps d.base (fun k : Fin c'.gen.length => pwl1Row (costAt c' k)) ++ []))) j y =
    ∑ k, if AngLimited E c'.branch[k] then F ((if (d.branch k).f = j then 1 else 0) - (if (d.branch k).t = j then 1 else 0)) (y (pos k)) else 0 := by
  obtain ⟨B, hB, hvs, -, -, -, -, -, ⟨L, hL, hlen, hnd, hix⟩, hmem⟩ := ang_block E c'.bus.length c' R.valid
  have hk : ∀ k : Fin c'.branch.length, (angRows E c')[(k : ℕ)]? =
      some ⟨c'.branch[k].f, c'.branch[k].t, E.angmin c'.branch[k].data.rest, E.angmax c'.branch[k].data.rest⟩ := by
    intro k
    simp [angRows]
  have hin : ∀ k : Fin c'.branch.length, (k : ℕ) ∈ L.index ↔ AngLimited E c'.branch[k] := fun k => hmem L hL k _ (hk k)
  have hlt : ∀ k ∈ L.index, k < c'.branch.length := by
    intro k hkL
    obtain ⟨i, hi⟩ := List.getElem?_of_mem hkL
    obtain ⟨b, hb, -⟩ := hix i k hi
    have := (List.getElem?_eq_some_iff.1 hb).1
    simpa [angRows] using this
  refine ⟨fun k => start (linBlocks (dcOps d ++ (angOps E c'.bus.length c' ++ (pwlOps d.base (fun k : Fin c'.gen.length => pwl1Row (costAt c' k)) ++ [])))) "ang" +
    L.index.idxOf (k : ℕ), fun k v => ?_, fun k v => ?_, ?_⟩
  · rw [R.post]
    by_cases hc : AngLimited E c'.branch[k]
    · simp only [angPost, hL, R.ang_i1, if_pos ((hin k).2 hc), if_pos hc]
    · simp only [angPost, hL, R.ang_i1, if_neg (fun h => hc ((hin k).1 h)), if_neg hc]
  · rw [R.post]
    by_cases hc : AngLimited E c'.branch[k]
    · simp only [angPost, hL, R.ang_i1, if_pos ((hin k).2 hc), if_pos hc]
    · simp only [angPost, hL, R.ang_i1, if_neg (fun h => hc ((hin k).1 h)), if_neg hc]
  · have e : ∀ a b : List Op, linBlks (a ++ b) = linBlks a ++ linBlks b := fun a b => by simp [linBlks]
    have hun : Untouched (varBlocks (dcOps d ++ (angOps E c'.bus.length c' ++ (pwlOps d.base (fun k : Fin c'.gen.length => pwl1Row (costAt c' k)) ++ []))))
        (linBlks (pwlOps d.base (fun k : Fin c'.gen.length => pwl1Row (costAt c' k)) ++ [])) j := by
      rw [List.append_nil]
      by_cases hy : nyOf (fun k : Fin c'.gen.length => pwl1Row (costAt c' k)) = 0
      · have : pwlOps d.base (fun k : Fin c'.gen.length => pwl1Row (costAt c' k)) = [] := by unfold pwlOps; rw [if_pos hy]
        rw [this]
        intro b hb'
        simp [linBlks] at hb'
      · rw [pwlOps_linBlks _ _ hy]
        intro b hb'
        rw [List.mem_singleton] at hb'
        subst hb'
        intro i (hi : i < (ayRows d.base fun k : Fin c'.gen.length => pwl1Row (costAt c' k)).length)
        have hr := List.getElem?_eq_getElem hi
        have := ycon_dot d (fun k : Fin c'.gen.length => pwl1Row (costAt c' k)) (angOps E c'.bus.length c') [] (angOps_varBlocks E c') i _ hr (Pi.single (j : ℕ) 1)
        have hj := j.isLt
        rw [List.append_nil] at this
        unfold coef
        simp only
        rw [this, Pi.single_eq_of_ne (by omega), Pi.single_eq_of_ne (by omega)]
        ring
    rw [e]
    have a2 := overRows_untouched F hF _ (linBlocks (dcOps d ++ (angOps E c'.bus.length c' ++ (pwlOps d.base (fun k : Fin c'.gen.length => pwl1Row (costAt c' k)) ++ [])))) _ _ y hun
    unfold overRows at *
    rw [List.map_append, List.sum_append, a2, add_zero]
    have hang : linBlks (angOps E c'.bus.length c') = [("ang", B)] := by rw [hB]; simp [linBlks]
    rw [hang, List.map_singleton, List.sum_singleton]
    simp only
    rw [← hlen, sum_index L.index hnd hlt]
    refine Finset.sum_congr rfl fun k _ => ?_
    by_cases hc : AngLimited E c'.branch[k]
    · rw [if_pos ((hin k).2 hc), if_pos hc]
      have hlt' := List.idxOf_lt_length_iff.2 ((hin k).2 hc)
      obtain ⟨b, hb1, hb2⟩ := hix (L.index.idxOf (k : ℕ)) k (by rw [List.getElem?_eq_getElem hlt', List.getElem_idxOf])
      rw [hk k] at hb1
      cases hb1
      congr 1
      unfold coef
      obtain ⟨-, -, -, e2, e3⟩ := R.ends k
      rw [hb2.row, hvs]
      simp only [e2, e3]
      rw [subvec_Va d _ _ (d.branch k).f, subvec_Va d _ _ (d.branch k).t]
      simp only [Pi.single_apply, Fin.val_inj]
    · rw [if_neg (fun h => hc ((hin k).1 h)), if_neg hc]

/-- Angles cost nothing. -/
theorem EconRun.angle_free (hcost : EconCosts c) (j : Fin c'.bus.length) :
    marginal (HH (dcData d.base (fun k : Fin c'.gen.length => pwl1Row (costAt c' k)) (noUser m.var.total) c'.bus.length (c'.bus.length + c'.gen.length) (dc_width R.run R.good)))
      (CC (dcData d.base (fun k : Fin c'.gen.length => pwl1Row (costAt c' k)) (noUser m.var.total) c'.bus.length (c'.bus.length + c'.gen.length) (dc_width R.run R.good))) s.x j = 0 := by
  have hlin := angOps_varBlocks (nb := c'.bus.length) E c'
  have hw := dc_width R.run R.good
  have hj := j.isLt
  have key : ∀ t : ℝ, marginal (HH (dcData d.base (fun k : Fin c'.gen.length => pwl1Row (costAt c' k)) (noUser m.var.total) c'.bus.length (c'.bus.length + c'.gen.length) hw))
      (CC (dcData d.base (fun k : Fin c'.gen.length => pwl1Row (costAt c' k)) (noUser m.var.total) c'.bus.length (c'.bus.length + c'.gen.length) hw)) s.x j * t ≤ 0 := by
    intro t
    have := change d (fun k : Fin c'.gen.length => costAt c' k) (R.costOK hcost) _ [] hlin m R.run R.good (noUser _) (noUser_convex _) _ rfl s.x
      (fun i => s.x i + if i = j then t else 0) (fun a => a.elim0)
    have n1 : ∀ k : ℕ, c'.bus.length + k ≠ (j : ℕ) := fun k => by omega
    have n2 : ∀ k : ℕ, c'.bus.length + c'.gen.length + k ≠ (j : ℕ) := fun k => by omega
    simp only [n1, n2, if_false, add_zero, sub_self, add_sub_cancel_left, mul_ite, mul_zero] at this
    rw [Finset.sum_eq_single (⟨j, by omega⟩ : Fin m.var.total)] at this
    · simpa using this
    · intro b _ hb
      exact if_neg fun h => hb (Fin.ext h)
    · exact fun h => absurd (Finset.mem_univ _) h
  have := key 1
  have := key (-1)
  linarith

end

/-! ### The claims -/

section
variable {srt : List ℕ → List ℕ} (hs : IsArgsort srt) {base : ℝ} (hb : 0 < base) {E : Econ} {o : Opt} {solve : AnySolver} {c : Index.Case Tables} (h : WF c)
  (hcost : EconCosts c) (hc : 0 < o.costMult)
  (hgood : ∀ c' d, Index.ext2int srt c = some c' → readCase base c' = some d → Good (dcOps d ++ (econSetup base E).extra d c'))
  {r : Ret} (hrun : opfDcEcon srt base E o solve c = some r) (hok : r.success = true)
  (lam : ℕ → ℝ) (hlam : ∀ b ∈ r.tables.bus, lam b.num = b.data.LAM_P)

include hs hb h hcost hc hgood hrun hok hlam

/-- **C99 (prices in the network).**  After a successful DC optimal power flow, at every bus in service other than the reference, what one more radian there is worth
over the branches at the bus adds up to nothing, up to a term that vanishes with the tolerances of the solver. -/
theorem C99_prices (b : BusRow BusD) (hbm : b ∈ r.tables.bus) (ht4 : b.typ ≠ 4) (ht3 : b.typ ≠ 3) :
    |onSum r.tables fun l => ends b.num l * worth E base lam l| ≤
      (o.gradtol * (1 + r.dual) + 1 / 10 ^ 5 * (2 * (1 + scaleAt E r.tables b.num))) / o.costMult / base := by
  classical
  obtain ⟨c', d, m, s, p, bp, gp, lp, R⟩ := econ_run hs h hcost.table hgood hrun
  have hbd : 0 < d.base := by rw [R.base]; exact hb
  have hok' : s.success = true := by rw [← R.success]; exact hok
  obtain ⟨j, b0, hj0, rfl, -, href, -⟩ := R.bridge.busRow hbm ht4
  have href' : d.isRef j = false := by
    rw [href]
    simpa using ht3
  have hcon := C78_congestion d _ m R.run R.good hbd _ _ _ o solve _ s R.sol hc hok' j href'
  rw [R.angle_free hcost j, zero_div, zero_add] at hcon
  -- the branches at the bus
  let I : Fin c'.branch.length → ℝ := fun k => (if (d.branch k).f = j then 1 else 0) - (if (d.branch k).t = j then 1 else 0)
  let A : Fin c'.branch.length → ℝ := fun k => (if (d.branch k).f = j then 1 else 0) + (if (d.branch k).t = j then 1 else 0)
  have hI : ∀ k, Cft d.branch k j = I k := by
    intro k
    rw [Cft_apply]
    simp only [I]
    split_ifs <;> ring
  have hIA : ∀ k, |I k| ≤ A k := by
    intro k
    simp only [I, A]
    split_ifs <;> norm_num
  have hA0 : ∀ k, 0 ≤ A k := by
    intro k
    simp only [A]
    split_ifs <;> norm_num
  -- terms of the condition
  have t1 : ∑ b, s.LAM_P b * Bbus d.branch b j = ∑ k, I k * (bdc (d.branch k) * (s.LAM_P (d.branch k).f - s.LAM_P (d.branch k).t)) := by
    simp only [Bbus, Matrix.mul_apply, Matrix.transpose_apply, Bf_apply, hI, Finset.mul_sum]
    rw [Finset.sum_comm]
    refine Finset.sum_congr rfl fun k _ => ?_
    have : ∑ b, s.LAM_P b * Cft d.branch k b = s.LAM_P (d.branch k).f - s.LAM_P (d.branch k).t := by
      simp only [Cft_apply, mul_add, mul_ite, mul_one, mul_zero, mul_neg, Finset.sum_add_distrib, Finset.sum_ite_eq, Finset.mem_univ, if_true]
      ring
    rw [← this, Finset.mul_sum, Finset.mul_sum]
    refine Finset.sum_congr rfl fun b _ => ?_
    ring
  have t2 : ∑ k, (s.MU_SF k - s.MU_ST k) * Bf d.branch k j = ∑ k, I k * (bdc (d.branch k) * (s.MU_SF k - s.MU_ST k)) := by
    refine Finset.sum_congr rfl fun k _ => ?_
    rw [Bf_apply, hI]
    ring
  obtain ⟨pos, pl, pu, t3⟩ := R.ang_rows (fun a y => a * y) (fun y => zero_mul y) j fun k => s.mu_u k - s.mu_l k
  obtain ⟨-, -, -, t4⟩ := R.ang_rows (fun a _ => |a|) (fun _ => abs_zero) j 0
  rw [t1, t2, extraTerm, t3, extraAbs, t4] at hcon
  -- the sum over the table
  have numEq : ∀ (i : Fin c'.bus.length) bi, c.bus[bp i]? = some bi → (bi.num = b0.num ↔ i = j) := fun i bi hi => R.bridge.sameBus h hi hj0
  have lamAt : ∀ (i : Fin c'.bus.length) bi, c.bus[bp i]? = some bi → lam bi.num = s.LAM_P i := by
    intro i bi hi
    obtain ⟨b1, h1, -, h2, -⟩ := R.bridge.bus i
    rw [hi] at h1; cases h1
    exact hlam _ (List.mem_of_getElem? h2)
  have rowFacts : ∀ k l, c.branch[lp k]? = some l → susc { l with data := (dcUpd s p).branch k l.data } = bdc (d.branch k) ∧
      (AngLimited E { l with data := (dcUpd s p).branch k l.data } ↔ AngLimited E c'.branch[k]) ∧
      ((if l.f = b0.num then (1 : ℝ) else 0) = if (d.branch k).f = j then 1 else 0) ∧ ((if l.t = b0.num then (1 : ℝ) else 0) = if (d.branch k).t = j then 1 else 0) ∧
      lam l.f = s.LAM_P (d.branch k).f ∧ lam l.t = s.LAM_P (d.branch k).t := by
    intro k l hl
    obtain ⟨l1, h1, -, -, ⟨bf, hf1, hf2⟩, ⟨bt, ht1, ht2⟩, -, hx, -, htap, -, hst, -⟩ := R.bridge.branch k
    rw [hl] at h1; cases h1
    obtain ⟨l2, e0, e1, -, -⟩ := R.ends k
    rw [hl] at e0; cases e0
    refine ⟨?_, ?_, ?_, ?_, ?_, ?_⟩
    · unfold susc bdc tapRatio
      rw [hx, htap, hst]
      rfl
    · unfold AngLimited Constr.Limited
      rw [e1]
      rfl
    · rw [← hf2]; simp only [numEq _ _ hf1]
    · rw [← ht2]; simp only [numEq _ _ ht1]
    · rw [← hf2]; exact lamAt _ _ hf1
    · rw [← ht2]; exact lamAt _ _ ht1
  have hsum : onSum r.tables (fun l => ends b0.num l * worth E base lam l) =
      ∑ k, I k * (bdc (d.branch k) * (s.LAM_P (d.branch k).f - s.LAM_P (d.branch k).t)) + ∑ k, I k * (bdc (d.branch k) * (s.MU_SF k - s.MU_ST k)) +
        (∑ k, if AngLimited E c'.branch[k] then I k * (s.mu_u (pos k) - s.mu_l (pos k)) else 0) / d.base := by
    rw [Finset.sum_div, ← Finset.sum_add_distrib, ← Finset.sum_add_distrib]
    refine R.bridge.onSum_eq _ _ fun k l hl _ => ?_
    obtain ⟨f1, f2, f3, f4, f5, f6⟩ := rowFacts k l hl
    have m1 : ((dcUpd s p).branch k l.data).MU_ANGMIN = p.angmin k l.data.MU_ANGMIN := by simp [dcUpd, hok']
    have m2 : ((dcUpd s p).branch k l.data).MU_ANGMAX = p.angmax k l.data.MU_ANGMAX := by simp [dcUpd, hok']
    have m3 : ((dcUpd s p).branch k l.data).MU_SF = s.MU_SF k := rfl
    have m4 : ((dcUpd s p).branch k l.data).MU_ST = s.MU_ST k := rfl
    unfold ends worth
    simp only [f1, f2, f3, f4, f5, f6, m1, m2, m3, m4, pl, pu]
    have hpi := Real.pi_ne_zero
    have hb0 := hb.ne'
    rw [R.base]
    simp only [I]
    by_cases hA : AngLimited E c'.branch[k]
    · simp only [if_pos hA]
      field_simp
      ring
    · simp only [if_neg hA]
      ring
  have hscale : scaleAt E r.tables b0.num = ∑ k, A k * (4 * |bdc (d.branch k)| + if AngLimited E c'.branch[k] then 1 else 0) := by
    unfold scaleAt
    refine R.bridge.onSum_eq _ _ fun k l hl _ => ?_
    obtain ⟨f1, f2, f3, f4, -, -⟩ := rowFacts k l hl
    simp only [f1, f2, f3, f4, A]
  have s1 : ∑ b, |Bbus d.branch b j| ≤ ∑ k, A k * (2 * |bdc (d.branch k)|) := by
    have : ∀ b, |Bbus d.branch b j| ≤ ∑ k, |Cft d.branch k b| * (|bdc (d.branch k)| * A k) := by
      intro b
      simp only [Bbus, Matrix.mul_apply, Matrix.transpose_apply, Bf_apply, hI]
      refine (Finset.abs_sum_le_sum_abs _ _).trans (Finset.sum_le_sum fun k _ => ?_)
      rw [abs_mul, abs_mul]
      exact mul_le_mul_of_nonneg_left (mul_le_mul_of_nonneg_left (hIA k) (abs_nonneg _)) (abs_nonneg _)
    refine (Finset.sum_le_sum fun b _ => this b).trans ?_
    rw [Finset.sum_comm]
    refine Finset.sum_le_sum fun k _ => ?_
    rw [← Finset.sum_mul]
    have hc2 : ∑ b, |Cft d.branch k b| ≤ 2 := by
      have : ∀ b, |Cft d.branch k b| ≤ (if (d.branch k).f = b then 1 else 0) + (if (d.branch k).t = b then 1 else 0) := by
        intro b
        rw [Cft_apply]
        split_ifs <;> norm_num
      refine (Finset.sum_le_sum fun b _ => this b).trans ?_
      rw [Finset.sum_add_distrib, Finset.sum_ite_eq, Finset.sum_ite_eq]
      norm_num
    have := mul_le_mul_of_nonneg_right hc2 (mul_nonneg (abs_nonneg (bdc (d.branch k))) (hA0 k))
    linarith
  have s2 : ∑ l with l ∈ d.il, |Bf d.branch l j| ≤ ∑ k, A k * |bdc (d.branch k)| := by
    refine (Finset.sum_le_sum_of_subset_of_nonneg (Finset.filter_subset _ _) fun k _ _ => abs_nonneg _).trans (Finset.sum_le_sum fun k _ => ?_)
    rw [Bf_apply, hI, abs_mul, mul_comm]
    exact mul_le_mul_of_nonneg_right (hIA k) (abs_nonneg _)
  have s3 : (∑ k, if AngLimited E c'.branch[k] then |I k| else 0) ≤ ∑ k, A k * if AngLimited E c'.branch[k] then 1 else 0 := by
    refine Finset.sum_le_sum fun k _ => ?_
    split_ifs
    · rw [mul_one]; exact hIA k
    · rw [mul_zero]
  have hS : scaleAt E r.tables b0.num = ∑ k, A k * (2 * |bdc (d.branch k)|) + 2 * ∑ k, A k * |bdc (d.branch k)| +
      ∑ k, A k * if AngLimited E c'.branch[k] then 1 else 0 := by
    rw [hscale, Finset.mul_sum, ← Finset.sum_add_distrib, ← Finset.sum_add_distrib]
    refine Finset.sum_congr rfl fun k _ => ?_
    ring
  rw [hsum]
  refine hcon.trans ?_
  rw [R.dual, ← R.base]
  refine div_le_div_of_nonneg_right (div_le_div_of_nonneg_right ?_ hc.le) hbd.le
  linarith

/-- **C99 (what price differences are worth).**  If all reference buses have the price `ρ`, the price differences along the branches, times the value of one more radian
there, add up to at most the deviations of the prices from `ρ` times the bounds of `C99_prices`. -/
theorem C99_rent (ρ : ℝ) (hρ : ∀ b ∈ r.tables.bus, b.typ = 3 → b.data.LAM_P = ρ) :
    |onSum r.tables fun l => (lam l.f - lam l.t) * worth E base lam l| ≤
      (r.tables.bus.map fun b => if b.typ = 4 ∨ b.typ = 3 then 0 else |b.data.LAM_P - ρ| *
        ((o.gradtol * (1 + r.dual) + 1 / 10 ^ 5 * (2 * (1 + scaleAt E r.tables b.num))) / o.costMult / base)).sum := by
  have hpr := C99_prices hs hb h hcost hc hgood hrun hok lam hlam
  obtain ⟨c', d, m, s, p, bp, gp, lp, R⟩ := econ_run hs h hcost.table hgood hrun
  have hnd : (r.tables.bus.map BusRow.num).Nodup := by rw [R.bridge.nums]; exact h.busNodup
  let a : BusRow BusD → ℝ := fun b => if b.typ = 4 ∨ b.typ = 3 then 0 else b.data.LAM_P - ρ
  have hend : ∀ n, Connected r.tables n → (r.tables.bus.map fun b => a b * if n = b.num then 1 else 0).sum = lam n - ρ := by
    rintro n ⟨b, hbm, rfl, ht⟩
    rw [pick _ hnd b hbm a]
    simp only [a]
    split_ifs with h34
    · have h3 : b.typ = 3 := h34.resolve_left ht
      rw [hlam b hbm, hρ b hbm h3, sub_self]
    · rw [hlam b hbm]
  have e : onSum r.tables (fun l => (lam l.f - lam l.t) * worth E base lam l) =
      (r.tables.bus.map fun b => a b * onSum r.tables fun l => ends b.num l * worth E base lam l).sum := by
    rw [← onSum_list]
    refine onSum_congr _ _ _ fun l hl hon => ?_
    have hf := hend _ hon.2.1
    have ht := hend _ hon.2.2
    have : lam l.f - lam l.t = (lam l.f - ρ) - (lam l.t - ρ) := by ring
    rw [this, ← hf, ← ht, sub_mul, ← List.sum_map_mul_right, ← List.sum_map_mul_right, sum_map_sub']
    refine congrArg List.sum (List.map_congr_left fun b _ => ?_)
    unfold ends
    ring
  rw [e]
  refine abs_sum_map_le _ _ _ fun b hbm => ?_
  simp only [a]
  split_ifs with h34
  · simp
  · rw [abs_mul]
    exact mul_le_mul_of_nonneg_left (hpr b hbm (fun h => h34 (Or.inl h)) fun h => h34 (Or.inr h)) (abs_nonneg _)

/-- **C99 (uniform price).**  If no flow or angle limit has a shadow price, prices differ along a branch only as far as the tolerances allow: the squared differences, times
the susceptances, add up to at most the bound of `C99_rent`. -/
theorem C99_uniform (ρ : ℝ) (hρ : ∀ b ∈ r.tables.bus, b.typ = 3 → b.data.LAM_P = ρ)
    (hfree : ∀ l ∈ r.tables.branch, BranchInService r.tables l → l.data.MU_SF = 0 ∧ l.data.MU_ST = 0 ∧ (AngLimited E l → l.data.MU_ANGMIN = 0 ∧ l.data.MU_ANGMAX = 0)) :
    onSum r.tables (fun l => susc l * (lam l.f - lam l.t) ^ 2) ≤
      (r.tables.bus.map fun b => if b.typ = 4 ∨ b.typ = 3 then 0 else |b.data.LAM_P - ρ| *
        ((o.gradtol * (1 + r.dual) + 1 / 10 ^ 5 * (2 * (1 + scaleAt E r.tables b.num))) / o.costMult / base)).sum := by
  have := (le_abs_self _).trans (C99_rent hs hb h hcost hc hgood hrun hok lam hlam ρ hρ)
  refine le_trans (le_of_eq ?_) this
  refine onSum_congr _ _ _ fun l hl hon => ?_
  obtain ⟨h1, h2, h3⟩ := hfree l hl hon
  unfold worth
  rw [h1, h2]
  split_ifs with hA
  · rw [(h3 hA).1, (h3 hA).2]; ring
  · ring

end

/-! ### The example

The run of C96: bus 2 is in service and not a reference, the only reference is bus 9. -/

example : ∃ (o : Opt) (r : Ret) (lam : ℕ → ℝ) (ρ : ℝ), (0 : ℝ) < 100 ∧ WF exEcon ∧ EconCosts exEcon ∧ 0 < o.costMult ∧
    (∀ c' d, Index.ext2int Index.stableArgsort exEcon = some c' → readCase 100 c' = some d → Good (dcOps d ++ (econSetup 100 exE).extra d c')) ∧
    opfDcEcon Index.stableArgsort 100 exE o (fun _ _ _ _ => none) exEcon = some r ∧ r.success = true ∧ (∀ b ∈ r.tables.bus, lam b.num = b.data.LAM_P) ∧
    (∀ b ∈ r.tables.bus, b.typ = 3 → b.data.LAM_P = ρ) ∧ ∃ b ∈ r.tables.bus, b.typ ≠ 4 ∧ b.typ ≠ 3 := by
  have hg := econ_wellposed Index.stableArgsort_isArgsort exEcon_wf exEcon_dc exE exE_ang
  obtain ⟨o, r, h1, -, -, -, h4, h5⟩ := (C96_completes Index.stableArgsort_isArgsort exEcon_wf exEcon_dc exE exE_ang).2 (fun _ _ _ _ => none)
  obtain ⟨c', d, m, s, p, bp, gp, lp, R⟩ := econ_run Index.stableArgsort_isArgsort exEcon_wf rfl hg h4
  have hnd : (r.tables.bus.map BusRow.num).Nodup := by rw [R.bridge.nums]; exact exEcon_wf.busNodup
  obtain ⟨lam, hlam⟩ := angle_function r.tables (fun a ha b hb hn => List.inj_on_of_nodup_map hnd ha hb hn) fun b => b.data.LAM_P
  refine ⟨o, r, lam, lam 9, by norm_num, exEcon_wf, exEcon_costs, h1, hg, h4, h5, hlam, fun b hb ht => ?_, ?_⟩
  · obtain ⟨i, hi⟩ := List.getElem?_of_mem hb
    obtain ⟨b0, e1, e2, e3, -⟩ := R.bridge.bus_at hi
    have key : ∀ b0 ∈ exEcon.bus, b0.typ = 3 → b0.num = 9 := by
      intro b0 hb0 ht0
      rcases List.mem_cons.1 hb0 with rfl | hb0
      · rfl
      rcases List.mem_cons.1 hb0 with rfl | hb0
      · exact absurd ht0 (by decide)
      rcases List.mem_cons.1 hb0 with rfl | hb0
      · exact absurd ht0 (by decide)
      · cases hb0
    rw [← hlam b hb, e2, key b0 (List.mem_of_getElem? e1) (by rw [← e3]; exact ht)]
  · have h2 : ∃ b, exEcon.bus[2]? = some b ∧ b.typ = 1 := ⟨_, rfl, rfl⟩
    obtain ⟨b, hb, ht⟩ := h2
    have hlt : 2 < r.tables.bus.length := by rw [R.bridge.busLen]; exact (List.getElem?_eq_some_iff.1 hb).1
    obtain ⟨b0, e1, -, e3, -⟩ := R.bridge.bus_at (List.getElem?_eq_getElem hlt)
    rw [hb] at e1; cases e1
    exact ⟨_, List.getElem_mem hlt, by rw [e3, ht]; decide, by rw [e3, ht]; decide⟩

end Verif.Opf
