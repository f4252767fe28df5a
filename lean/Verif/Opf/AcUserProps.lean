import Verif.Opf.AcUserLemmas
import Verif.Opf.UserRuns

/-!
# C126: the AC optimal power flow with user-defined constraints and variables

Read off the tables and the user data of the caller and `results`.  As in the DC problem (C109) `ext2int` returns a sparse `A` as it is, so its columns are applied to connected buses and
generators in service in internal order.
-/

namespace Verif.Opf

open Verif.Index (BusRow GenRow BranchRow IsArgsort WF GenInService BranchInService Connected posOf orderOf)
open Verif.OpfModel Verif.Pips Verif.Network Verif.OpfCost

section
variable {srt : List ℕ → List ℕ} {base : ℝ} {lim : Int} {K : Curves} {U : UserIn} {o : Opt} {solve : AnySolver} {c : Index.Case Tables} {ret : Ret} {out : AcUserOut}

/-- **C126 (tables).**  The tables of a run with user data are the tables of an AC optimal power flow with further variables and constraints: everything proved of those holds (power
balance, limits, capability curves, prices). -/
theorem C126_tables (hrun : opfAcUser srt base lim K U o solve c = some (ret, out)) : opfAcCurve srt base lim (withUser K U) o solve c = some ret := by
  unfold opfAcUser at hrun
  simp only [Option.bind_eq_bind, Option.bind_eq_some_iff] at hrun
  obtain ⟨c', hc', d, hd, hrun⟩ := hrun
  split at hrun
  swap
  · exact absurd hrun (by simp)
  simp only [Option.bind_eq_some_iff] at hrun
  obtain ⟨m, hm, s, hs', out', hout, mu, hmu, t, ht, e⟩ := hrun
  injection e with e
  obtain ⟨e1, e2⟩ := Prod.mk.inj e
  subst e1 e2
  unfold opfAcCurve
  simp only [hc', hd, hm, Option.bind_eq_bind, Option.bind_some]
  show (pipsopfSolver d lim (K.cost c') m o solve (K.ang.x0 c' m)).bind _ = _
  rw [hs', Option.bind_some]
  show (curveMus base K c' m s).bind _ = _
  rw [hmu, Option.bind_some]
  show (Index.int2ext (write c' (acUpd s (curvePost K c' m s mu)))).bind _ = _
  rw [ht, Option.bind_some]

/-- **C126 (dense matrices).**  A dense `A` with rows makes the run raise. -/
theorem C126_dense (hs : IsArgsort srt) (h : WF c) (a : Index.UserMat (List ℝ)) (hA : c.A = some a) (hd : a.sparse = false) (hr : rowsOf a.cols ≠ 0)
    (hrect : ∀ x ∈ a.cols, ∀ y ∈ a.cols, x.length = y.length) : opfAcUser srt base lim K U o solve c = none := by
  by_contra hne
  obtain ⟨⟨ret, out⟩, hrun⟩ := Option.ne_none_iff_exists'.1 hne
  unfold opfAcUser at hrun
  simp only [Option.bind_eq_bind, Option.bind_eq_some_iff] at hrun
  obtain ⟨c', hc', d, hd', hrun⟩ := hrun
  obtain ⟨gen, gc, A, N, h1, -, -, h2, -⟩ := Index.ext2int_result hs h
  rw [hc'] at h1
  injection h1 with h1
  have hno : sparseOk c'.A = false := by
    rw [h1]
    rw [hA] at h2
    obtain ⟨b, rfl, hb1, hb2⟩ := dense_rows hs h hd hr hrect h2
    show sparseOk (some b) = false
    simp [sparseOk, hb1, hb2]
  rw [hno] at hrun
  simp at hrun

end

section
variable {srt : List ℕ → List ℕ} (hs : IsArgsort srt) {base : ℝ} (hb : 0 < base) {lim : Int} {K : Curves} {U : UserIn} {o : Opt} {solve : AnySolver} {c : Index.Case Tables} (h : WF c)
  (hu : AcUserShape c)
  (hgood : ∀ c' d, Index.ext2int srt c = some c' → readCase base c' = some d →
    Good (acOps d ++ curveExtra (withUser K U) d c') ∧ (names (nlnBlocks (acOps d ++ curveExtra (withUser K U) d c'))).Nodup)
  {ret : Ret} {out : AcUserOut} (hrun : opfAcUser srt base lim K U o solve c = some (ret, out)) (hok : ret.success = true)

include hs hb h hu hgood hrun hok

theorem acUser_applied : AcUserApplied base c U (posOf srt c .bus) (posOf srt c .gen) ret out := by
  obtain ⟨c', d, m, s, bp, gp, X⟩ := acUser_run hs h hu hgood hrun
  have hok' : s.success = true := by rw [← X.success]; exact hok
  have hbd : 0 < d.base := by rw [X.base]; exact hb
  obtain ⟨hvars, hrows, -, -⟩ := C79_extra d _ m X.run X.good.1 X.good.2 hbd lim (K.cost c') o solve _ s X.sol hok'
  refine ⟨?_, ?_, ?_⟩
  · rw [X.zlen, ← X.blen, ← X.glen]
    rfl
  · intro i hi
    have hr : (aW c c' U).A.rows ≠ 0 := by
      show rowsOf (colsOf c.A) ≠ 0
      omega
    have w := hrows _ (withUser_usr K U d c' _ X.user hr) i hi
    simp only at w
    rw [X.row_value hb hr i, ← X.tol] at w
    exact w
  · intro k hk
    rw [X.zlen] at hk
    have hz : (aW c c' U).nz ≠ 0 := by omega
    have w := hvars _ (withUser_z K U d c' _ X.user hz).2 k hk
    simp only at w
    rw [(acUser_zlo hk).1, (acUser_zlo hk).2, ← X.tol] at w
    rw [X.z_at hk]
    exact w

/-- **C126 (what is applied).**  On success the user constraints hold and the user variables are within their bounds, with the columns of `A` applied to the rows of the connected buses
in order (angles, then magnitudes), then to the rows of the generators in service by bus (outputs, then reactive outputs), then to the user variables. -/
theorem C126_applied : ∃ bs gs, RowOrder c bs gs ∧ AcUserApplied base c U bs gs ret out :=
  ⟨_, _, rowOrder hs h, acUser_applied hs hb h hu hgood hrun hok⟩

/-- **C126, as far as it holds.**  The user constraints and bounds hold on the caller's own rows if everything is in service and the generators are listed in the order of their buses.
Missing: all other cases, see `C126_negation`. -/
theorem C126_partial (ho : InOrder srt c) : AcUserApplied base c U (List.range c.bus.length) (List.range c.gen.length) ret out := by
  obtain ⟨e1, e2⟩ := inOrder_pos hs h ho
  rw [← e1, ← e2]
  exact acUser_applied hs hb h hu hgood hrun hok

variable (hc : 0 < o.costMult) (hft : 0 ≤ o.feastol) (hct : 0 ≤ o.comptol)

include hc hft hct

theorem acUser_prices : ∀ M : ℝ, 0 ≤ M → (∀ v ∈ out.x, |v| ≤ M) →
    AcUserPrices base c U (posOf srt c .bus) (posOf srt c .gen) ret out (compGap o M ret.dual ret.tol) := by
  obtain ⟨c', d, m, s, bp, gp, X⟩ := acUser_run hs h hu hgood hrun
  have hok' : s.success = true := by rw [← X.success]; exact hok
  have hbd : 0 < d.base := by rw [X.base]; exact hb
  have sg := acExtra_signs X.run X.good.1 X.good.2 hbd X.sol hc
  obtain ⟨cv, cl⟩ := acExtra_comp X.run X.good.1 X.good.2 hbd X.sol hc hft hok'
  intro M hM hx
  have hnorm := X.norm_le hM hx
  have hgap : compGap o ‖fun i : Fin m.var.total => s.x i‖ s.dual s.tol ≤ compGap o M ret.dual ret.tol := by
    rw [X.dual, X.tol]
    unfold compGap
    have := mul_le_mul_of_nonneg_left hnorm hct
    refine div_le_div_of_nonneg_right ?_ hc.le
    linarith
  have at_range : ∀ (n : ℕ) (F : ℕ → ℝ) (L : List ℝ), L = (List.range n).map F → ∀ i < n, L.getD i 0 = F i := by
    rintro n F L rfl i hi
    rw [List.getD_eq_getElem?_getD]
    simp [hi]
  have pos_range : ∀ (n : ℕ) (F : ℕ → ℝ) (L : List ℝ), L = (List.range n).map F → (∀ i, 0 ≤ F i) → ∀ v ∈ L, 0 ≤ v := by
    rintro n F L rfl hF v hv
    obtain ⟨i, -, rfl⟩ := List.mem_map.1 hv
    exact hF i
  have hne : ∀ i < rowsOf (colsOf c.A), (aW c c' U).A.rows ≠ 0 := by
    intro i hi
    show rowsOf (colsOf c.A) ≠ 0
    omega
  refine ⟨⟨?_, ?_, ?_, ?_⟩, ⟨pos_range _ _ _ X.mu_l fun i => (sg _).2.2.1, pos_range _ _ _ X.mu_u fun i => (sg _).2.2.2, pos_range _ _ _ X.z_mu_l fun i => (sg _).1,
    pos_range _ _ _ X.z_mu_u fun i => (sg _).2.1⟩, ?_, ?_, ?_, ?_, ?_, ?_⟩
  · rw [X.mu_l]; simp [acUser, colMat]
  · rw [X.mu_u]; simp [acUser, colMat]
  · rw [X.z_mu_l, X.zlen]; simp
  · rw [X.z_mu_u, X.zlen]; simp
  · intro i hi
    obtain ⟨a1, a2⟩ := acExtra_absent X.run X.good.1 X.good.2 hbd X.sol _ (withUser_usr K U d c' _ X.user (hne i hi)) i hi
    rw [at_range _ _ _ X.mu_l i hi, at_range _ _ _ X.mu_u i hi]
    exact ⟨a1, a2⟩
  · intro k hk
    rw [X.zlen] at hk
    have hz0 : (aW c c' U).nz ≠ 0 := by omega
    obtain ⟨a1, a2⟩ := acExtra_unbounded X.run X.good.1 X.good.2 hbd X.sol _ (withUser_z K U d c' _ X.user hz0).2 k hk
    rw [at_range _ _ _ X.z_mu_l k hk, at_range _ _ _ X.z_mu_u k hk]
    exact ⟨fun e => a1 ((acUser_zlo hk).1.trans e), fun e => a2 ((acUser_zlo hk).2.trans e)⟩
  · intro i hi u hu'
    have := (cl _ (withUser_usr K U d c' _ X.user (hne i hi)) i hi).1 u hu'
    simp only [X.row_value hb (hne i hi) i] at this
    rw [at_range _ _ _ X.mu_u i hi]
    exact this.trans hgap
  · intro i hi l hl
    have := (cl _ (withUser_usr K U d c' _ X.user (hne i hi)) i hi).2 l hl
    simp only [X.row_value hb (hne i hi) i] at this
    rw [at_range _ _ _ X.mu_l i hi]
    exact this.trans hgap
  · intro k hk u hu'
    rw [X.zlen] at hk
    have hz0 : (aW c c' U).nz ≠ 0 := by omega
    have := (cv _ (withUser_z K U d c' _ X.user hz0).2 k hk).1 u ((acUser_zlo hk).2.trans hu')
    simp only at this
    rw [at_range _ _ _ X.z_mu_u k hk, X.z_at hk]
    exact this.trans hgap
  · intro k hk l hl
    rw [X.zlen] at hk
    have hz0 : (aW c c' U).nz ≠ 0 := by omega
    have := (cv _ (withUser_z K U d c' _ X.user hz0).2 k hk).2 l ((acUser_zlo hk).1.trans hl)
    simp only at this
    rw [at_range _ _ _ X.z_mu_l k hk, X.z_at hk]
    exact this.trans hgap

/-- **C126 (multipliers).**  On success the multipliers of user constraints and bounds are not negative, zero for absent bounds, and times the unused margin at most `compGap`, which
vanishes with the tolerances of the solver; `M` bounds the entries of `results['x']`. -/
theorem C126_multipliers : ∃ bs gs, RowOrder c bs gs ∧ ∀ M : ℝ, 0 ≤ M → (∀ v ∈ out.x, |v| ≤ M) → AcUserPrices base c U bs gs ret out (compGap o M ret.dual ret.tol) :=
  ⟨_, _, rowOrder hs h, acUser_prices hs hb h hu hgood hrun hok hc hft hct⟩

/-- **C126 (multipliers, as far as it holds).**  On the caller's own rows if everything is in service and the generators are listed in the order of their buses. -/
theorem C126_multipliers_partial (ho : InOrder srt c) : ∀ M : ℝ, 0 ≤ M → (∀ v ∈ out.x, |v| ≤ M) →
    AcUserPrices base c U (List.range c.bus.length) (List.range c.gen.length) ret out (compGap o M ret.dual ret.tol) := by
  obtain ⟨e1, e2⟩ := inOrder_pos hs h ho
  rw [← e1, ← e2]
  exact acUser_prices hs hb h hu hgood hrun hok hc hft hct

end

end Verif.Opf
