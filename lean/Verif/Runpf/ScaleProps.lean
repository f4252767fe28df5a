import Verif.Runpf.ScaleLemmas
import Verif.Runpf.TableDc
import Mathlib.Algebra.BigOperators.Finprod

/-!
# C137: the MVA base is only a unit
-/

namespace Verif.Runpf

open Verif.Network Verif.Pfsoln Verif.Solvers
open Verif.Index (BusRow GenRow BranchRow IsArgsort WF GenInService BranchInService Connected posOf)
open Verif.Opf (Tables BusD GenD BrD Upd write zeroOff readCase bridge_exists)

noncomputable section

theorem dcpf_scale {B : Type} [Fintype B] {a : ℝ} (isRef : B → Prop) [DecidablePred isRef]
    (solve : Matrix {i : B // ¬ isRef i} {i : B // ¬ isRef i} ℝ → ({i : B // ¬ isRef i} → ℝ) → ({i : B // ¬ isRef i} → ℝ))
    (hsolve : ∀ M v, solve (fun i j => a * M i j) (fun i => a * v i) = solve M v) {M M' : Matrix B B ℝ} (hM : ∀ i j, M' i j = a * M i j) {P P' : B → ℝ} (hP : ∀ i, P' i = a * P i)
    (Va : B → ℝ) : dcpf isRef solve M' P' Va = dcpf isRef solve M P Va := by
  have h1 : (fun i j : {i : B // ¬ isRef i} => M' i.1 j.1) = fun i j => a * M i.1 j.1 := funext fun i => funext fun j => hM _ _
  have h2 : (fun i : {i : B // ¬ isRef i} => P' i.1 - ∑ r : {r : B // isRef r}, M' i.1 r.1 * Va r.1) =
      fun i => a * (P i.1 - ∑ r : {r : B // isRef r}, M i.1 r.1 * Va r.1) := by
    funext i
    rw [hP, mul_sub, Finset.mul_sum]
    simp only [hM, mul_assoc]
  have h3 : solve (fun i j => M' i.1 j.1) (fun i => P' i.1 - ∑ r : {r : B // isRef r}, M' i.1 r.1 * Va r.1) =
      solve (fun i j => M i.1 j.1) (fun i => P i.1 - ∑ r : {r : B // isRef r}, M i.1 r.1 * Va r.1) := by
    rw [h2]
    exact (congrArg (fun N => solve N _) h1).trans (hsolve (fun i j => M i.1 j.1) _)
  unfold dcpf
  rw [h3]

section
variable {srt : List ℕ → List ℕ} (hs : IsArgsort srt) {k : ℝ} (hk : 0 < k) (base : ℝ) {c : Index.Case Tables} (w : WF c)
include hs hk w

/-- **C137 (AC power flow).**  On a base `k` times as large, with impedances, charging and tolerance converted, every algorithm raises, diverges or succeeds as before, and returns the same
bus and generator rows and the same flows in MW and MVAr. -/
theorem C137_ac (o : PfOpt) {lib : PfLib} (hlib : ScaleFree lib) :
    Option.Rel (SameRebased k) (runpfAc srt base o lib c) (runpfAc srt (k * base) { o with tol := o.tol / k } lib (rebase k c)) := by
  obtain ⟨c', d, he1, hd, hex1⟩ := bridge_exists hs base w
  obtain ⟨hbr, ar, gc, A, N, od, he2⟩ := rebase_internal (k := k) hs w he1
  obtain ⟨_, d2, he', hd2, hex2⟩ := bridge_exists hs base (rebase_wf (k := k) w)
  rw [he2] at he'; cases he'
  have e : c'.branch.length = (Index.brI (rebase k c)).length := by rw [hbr, rebase_brI, List.length_map]
  obtain ⟨hp2, hpb, -⟩ := readPf_with hd hd2
  have hrow := rebase_rows hbr hd hd2 e
  unfold runpfAc
  rw [he1, he2]
  simp only [Option.bind_eq_bind, Option.bind_some]
  rw [readPf_base base (k * base), hp2]
  cases hp : readPf base c' with
  | none => exact .none
  | some p =>
  simp only [Option.map_some, Option.bind_some]
  have hb := hpb p hp
  rw [← hb] at hrow
  have hbase : p.baseMVA = base := by
    have h1 := readPf_base base base c'
    rw [hp] at h1
    exact congrArg Case.baseMVA (Option.some.inj h1)
  subst hbase
  have hk0 : k⁻¹ ≠ 0 := inv_ne_zero hk.ne'
  have hk1 : 0 < k⁻¹ := inv_pos.2 hk
  have hY : ∀ i j, Ybus (k * p.baseMVA) p.bus d2.branch i j = ((k⁻¹ : ℝ) : ℂ) * Ybus p.baseMVA p.bus p.branch i j := fun i j => by
    rw [Ybus_rebase (finCongr e) hrow, Complex.ofReal_inv]
  have hS : ∀ i, makeSbus (k * p.baseMVA) p.bus (fun g => (p.gen g).toGen) i = ((k⁻¹ : ℝ) : ℂ) * makeSbus p.baseMVA p.bus (fun g => (p.gen g).toGen) i := fun i => by
    rw [makeSbus_rebase, Complex.ofReal_inv]
  have hsolver : ∀ V0, pickSolver { o with tol := o.tol / k } lib (withBase (withBranch p d2.branch) (k * p.baseMVA)) (makeSbus (k * p.baseMVA) p.bus fun g => (p.gen g).toGen) V0 =
      pickSolver o lib p (makeSbus p.baseMVA p.bus fun g => (p.gen g).toGen) V0 := by
    intro V0
    unfold pickSolver
    simp only [show o.tol / k = k⁻¹ * o.tol by rw [div_eq_mul_inv, mul_comm]]
    by_cases h1 : o.alg = 1
    · rw [if_pos h1, if_pos h1]
      exact newtonpf_scale hk1 hY hS lib.lin (fun V J F => hlib.lin V J F _ hk0) V0 p.pv p.pq o.tol o.maxIt
    rw [if_neg h1, if_neg h1]
    by_cases h2 : o.alg = 2 ∨ o.alg = 3
    · rw [if_pos h2, if_pos h2]
      have e1 : ((p.pv ++ p.pq).map fun i => (p.pv ++ p.pq).map fun j => Bp (k * p.baseMVA) p.bus d2.branch o.alg.toNat i j) =
          ((p.pv ++ p.pq).map fun i => (p.pv ++ p.pq).map fun j => Bp p.baseMVA p.bus p.branch o.alg.toNat i j).map fun r => r.map (k⁻¹ * ·) := by
        simp only [Bp_rebase (finCongr e) hrow, List.map_map, Function.comp_def]
      have e2 : (p.pq.map fun i => p.pq.map fun j => Bpp (k * p.baseMVA) p.bus d2.branch o.alg.toNat i j) =
          (p.pq.map fun i => p.pq.map fun j => Bpp p.baseMVA p.bus p.branch o.alg.toNat i j).map fun r => r.map (k⁻¹ * ·) := by
        simp only [Bpp_rebase (finCongr e) hrow, List.map_map, Function.comp_def]
      have r1 := hlib.splu ((p.pv ++ p.pq).map fun i => (p.pv ++ p.pq).map fun j => Bp p.baseMVA p.bus p.branch o.alg.toNat i j) _ hk0
      have r2 := hlib.splu (p.pq.map fun i => p.pq.map fun j => Bpp p.baseMVA p.bus p.branch o.alg.toNat i j) _ hk0
      rw [← e1] at r1
      rw [← e2] at r2
      show fdpf (Ybus (k * p.baseMVA) p.bus d2.branch) _ V0
        ((lib.splu ((p.pv ++ p.pq).map fun i => (p.pv ++ p.pq).map fun j => Bp (k * p.baseMVA) p.bus d2.branch o.alg.toNat i j)).isSome &&
          (lib.splu (p.pq.map fun i => p.pq.map fun j => Bpp (k * p.baseMVA) p.bus d2.branch o.alg.toNat i j)).isSome)
        ((lib.splu ((p.pv ++ p.pq).map fun i => (p.pv ++ p.pq).map fun j => Bp (k * p.baseMVA) p.bus d2.branch o.alg.toNat i j)).getD fun _ => none)
        ((lib.splu (p.pq.map fun i => p.pq.map fun j => Bpp (k * p.baseMVA) p.bus d2.branch o.alg.toNat i j)).getD fun _ => none) p.pv p.pq _ _ = _
      have key : ∀ {P P' : Option BSolver}, Option.Rel (fun P P' => ∀ F : List ℝ, P' (F.map (k⁻¹ * ·)) = P F) P P' →
          P'.isSome = P.isSome ∧ ∀ F : List ℝ, (P'.getD fun _ => none) (F.map (k⁻¹ * ·)) = (P.getD fun _ => none) F := by
        intro P P' h
        cases h with
        | none => exact ⟨rfl, fun _ => rfl⟩
        | some h => exact ⟨rfl, h⟩
      rw [(key r1).1, (key r2).1]
      exact fdpf_scale hk1 hY hS _ (key r1).2 (key r2).2 V0 p.pv p.pq o.tol o.maxItFd
    rw [if_neg h2, if_neg h2]
    by_cases h3 : o.alg = 4
    · rw [if_pos h3, if_pos h3]
      exact gausspf_scale hk1 hY hS V0 p.pv p.pq o.tol o.maxItGs
    rw [if_neg h3, if_neg h3]
  have hrun := runAC_rebase hk p (finCongr e) hrow o.EPS o.viol o.qlim hsolver
  rw [show runAC o.EPS o.viol o.qlim (pickSolver { o with tol := o.tol / k } lib (withBase (withBranch p d2.branch) (k * p.baseMVA)))
    (withBase (withBranch p d2.branch) (k * p.baseMVA)) = _ from hrun]
  cases hq : runAC o.EPS o.viol o.qlim (pickSolver o lib p) p with
  | none => exact .none
  | some q =>
  cases q with
  | nan s => exact .some ⟨rfl, .none⟩
  | ok s =>
  simp only [Option.map_some, Option.bind_some, reflowR]
  obtain ⟨hf, ht⟩ := runAC_flows hq
  obtain ⟨r1, hr1⟩ := hex1 (acUpd s)
  obtain ⟨r2, hr2⟩ := hex2 (acUpd (reflow (k * p.baseMVA) d2.branch s))
  have hfl := rebase_results hs w he1 he2 hd hd2 e (acUpd s) (acUpd (reflow (k * p.baseMVA) d2.branch s)) rfl rfl
    (fun l x => by
      simp only [acUpd, reflow, hf, ht, brFrom_rebase hk p (finCongr e) hrow, brTo_rebase hk p (finCongr e) hrow, rebaseData]) hr1 hr2
  rw [hr1, hr2]
  exact .some ⟨rfl, .some hfl⟩

/-- **C137 (DC power flow).** -/
theorem C137_dc {lib : DcLib} (hlib : ScaleFreeDc lib) : Option.Rel (SameRebased k) (runpfDc srt base lib c) (runpfDc srt (k * base) lib (rebase k c)) := by
  obtain ⟨c', d, he1, hd, hex1⟩ := bridge_exists hs base w
  obtain ⟨hbr, ar, gc, A, N, od, he2⟩ := rebase_internal (k := k) hs w he1
  obtain ⟨_, d2, he', hd2, hex2⟩ := bridge_exists hs base (rebase_wf (k := k) w)
  rw [he2] at he'; cases he'
  have e : c'.branch.length = (Index.brI (rebase k c)).length := by rw [hbr, rebase_brI, List.length_map]
  obtain ⟨hp2, hpb, -⟩ := readPf_with hd hd2
  have hrow := rebase_rows hbr hd hd2 e
  unfold runpfDc
  rw [he1, he2]
  simp only [Option.bind_eq_bind, Option.bind_some]
  rw [readPf_base base (k * base), hp2]
  cases hp : readPf base c' with
  | none => exact .none
  | some p =>
  simp only [Option.map_some, Option.bind_some]
  have hb := hpb p hp
  rw [← hb] at hrow
  have hbase : p.baseMVA = base := by
    have h1 := readPf_base base base c'
    rw [hp] at h1
    exact congrArg Case.baseMVA (Option.some.inj h1)
  subst hbase
  have hk0 : k⁻¹ ≠ 0 := inv_ne_zero hk.ne'
  have hVa : Pfsoln.dcpf (· ∈ (withBase (withBranch p d2.branch) (k * p.baseMVA)).ref) lib (Bbus (withBase (withBranch p d2.branch) (k * p.baseMVA)).branch)
      (Pfsoln.dcPbus (withBase (withBranch p d2.branch) (k * p.baseMVA)).baseMVA (withBase (withBranch p d2.branch) (k * p.baseMVA)).bus (withBase (withBranch p d2.branch) (k * p.baseMVA)).gen
        (withBase (withBranch p d2.branch) (k * p.baseMVA)).branch) (fun i => (withBase (withBranch p d2.branch) (k * p.baseMVA)).VA i * (Real.pi / 180)) =
      Pfsoln.dcpf (· ∈ p.ref) lib (Bbus p.branch) (Pfsoln.dcPbus p.baseMVA p.bus p.gen p.branch) (fun i => p.VA i * (Real.pi / 180)) := by
    show Pfsoln.dcpf (· ∈ p.ref) lib (Bbus d2.branch) (Pfsoln.dcPbus (k * p.baseMVA) p.bus p.gen d2.branch) (fun i => p.VA i * (Real.pi / 180)) = _
    exact dcpf_scale _ lib (fun M v => hlib _ M v k⁻¹ hk0) (Bbus_rebase (finCongr e) hrow) (dcPbus_rebase p (finCongr e) hrow) _
  rw [hVa]
  generalize Pfsoln.dcpf (· ∈ p.ref) lib (Bbus p.branch) (Pfsoln.dcPbus p.baseMVA p.bus p.gen p.branch) (fun i => p.VA i * (Real.pi / 180)) = Va
  rw [show Pfsoln.dcPG (withBase (withBranch p d2.branch) (k * p.baseMVA)).baseMVA (withBase (withBranch p d2.branch) (k * p.baseMVA)).bus
    (withBase (withBranch p d2.branch) (k * p.baseMVA)).gen (withBase (withBranch p d2.branch) (k * p.baseMVA)).branch (withBase (withBranch p d2.branch) (k * p.baseMVA)).ref Va = _ from
    dcPG_rebase hk p (finCongr e) hrow Va]
  cases Pfsoln.dcPG p.baseMVA p.bus p.gen p.branch p.ref Va with
  | none => exact .none
  | some PG =>
  simp only [Option.bind_some]
  obtain ⟨r1, hr1⟩ := hex1 (dcUpd p Va PG)
  obtain ⟨r2, hr2⟩ := hex2 (dcUpd (withBase (withBranch p d2.branch) (k * p.baseMVA)) Va PG)
  have hfl := rebase_results hs w he1 he2 hd hd2 e (dcUpd p Va PG) (dcUpd (withBase (withBranch p d2.branch) (k * p.baseMVA)) Va PG) rfl rfl
    (fun l x => by
      simp only [dcUpd, withBase, withBranch, dcPF_rebase hk p (finCongr e) hrow, rebaseData]) hr1 hr2
  have hr2' : Index.int2ext (write { c' with branch := Index.brI (rebase k c), areas := ar, gencost := gc, A := A, N := N, order := od }
    (dcUpd (withBase (withBranch p d2.branch) (k * p.baseMVA)) Va PG)) = some r2 := hr2
  rw [hr1, hr2']
  exact .some ⟨rfl, .some hfl⟩

end

/-! ### Libraries that solve linear systems have the property assumed of them -/

/-- `x` solves the equations with rows `J` and right-hand sides `F`. -/
def SolvesRows (J : List (List ℝ)) (F x : List ℝ) : Prop := x.length = J.length ∧ J.map (fun r => (List.zipWith (· * ·) r x).sum) = F

theorem solvesRows_scale (J : List (List ℝ)) (F : List ℝ) {a : ℝ} (ha : a ≠ 0) : SolvesRows (J.map fun r => r.map (a * ·)) (F.map (a * ·)) = SolvesRows J F := by
  funext x
  have hrow : ∀ r : List ℝ, (List.zipWith (· * ·) (r.map (a * ·)) x).sum = a * (List.zipWith (· * ·) r x).sum := by
    intro r
    induction r generalizing x with
    | nil => simp
    | cons u r ih =>
      cases x with
      | nil => simp
      | cons v x => simp only [List.map_cons, List.zipWith_cons_cons, List.sum_cons, ih]; ring
  unfold SolvesRows
  simp only [List.length_map, List.map_map, Function.comp_def, hrow]
  rw [show (J.map fun r => a * (List.zipWith (· * ·) r x).sum) = (J.map fun r => (List.zipWith (· * ·) r x).sum).map (a * ·) by rw [List.map_map]; rfl]
  rw [(List.map_injective_iff.2 (mul_right_injective₀ ha)).eq_iff]

open Classical in
/-- Libraries that return the solution if there is exactly one; `splu` raises when some right-hand side has none or several. -/
def exactLib : PfLib where
  lin := fun _ J F => if h : ∃! x, SolvesRows J F x then some h.choose else none
  splu := fun M => if ∀ F : List ℝ, F.length = M.length → ∃! x, SolvesRows M F x then some fun F => if h : ∃! x, SolvesRows M F x then some h.choose else none else none

example : ScaleFree exactLib := by
  classical
  refine ⟨fun V J F a ha => ?_, fun M a ha => ?_⟩
  · simp only [exactLib, solvesRows_scale J F ha]
  · have hiff : (∀ F : List ℝ, F.length = (M.map fun r => r.map (a * ·)).length → ∃! x, SolvesRows (M.map fun r => r.map (a * ·)) F x) ↔
        ∀ F : List ℝ, F.length = M.length → ∃! x, SolvesRows M F x := by
      constructor
      · intro h F hF
        rw [← solvesRows_scale M F ha]
        exact h _ (by simp [hF])
      · intro h F hF
        have hF' : F = (F.map (a⁻¹ * ·)).map (a * ·) := by
          rw [List.map_map]
          conv_lhs => rw [← List.map_id F]
          exact List.map_congr_left fun x _ => by simp [ha]
        rw [hF', solvesRows_scale M _ ha]
        exact h _ (by simpa using hF)
    simp only [exactLib, hiff]
    split_ifs with h
    · exact .some fun F => by simp only [solvesRows_scale M F ha]
    · exact .none

open Classical in
/-- The same for the DC power flow. -/
def exactDc : DcLib := fun {I} M v => if h : ∃ x : I → ℝ, ∀ i, ∑ᶠ j, M i j * x j = v i then h.choose else 0

example : ScaleFreeDc exactDc := by
  classical
  intro I M v a ha
  have : (fun x : I → ℝ => ∀ i, ∑ᶠ j, a * M i j * x j = a * v i) = fun x : I → ℝ => ∀ i, ∑ᶠ j, M i j * x j = v i := by
    funext x
    refine propext (forall_congr' fun i => ?_)
    rw [show (∑ᶠ j, a * M i j * x j) = a * ∑ᶠ j, M i j * x j by
      rw [← smul_eq_mul, smul_finsum]
      simp only [smul_eq_mul, mul_assoc]]
    exact mul_right_inj' ha
  unfold exactDc
  simp only [this]

example : WF Opf.exTables ∧ (0 : ℝ) < 10 ∧ (rebase 10 Opf.exTables).branch ≠ Opf.exTables.branch := by
  refine ⟨Opf.exTables_wf, by norm_num, fun h => ?_⟩
  have := congrArg (fun l => l.head?.map fun r => r.data.x) h
  simp [rebase, rebaseRow, rebaseData, Opf.exTables] at this
  norm_num at this

end

end Verif.Runpf
