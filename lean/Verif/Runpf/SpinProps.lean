import Verif.Runpf.SpinLemmas
import Verif.Runpf.ScaleProps
import Verif.Runpf.InjectProps

/-!
# C138: only differences of voltage angles matter
-/

namespace Verif.Runpf

open Verif.Network Verif.Pfsoln Verif.Solvers
open Verif.Index (BusRow GenRow BranchRow IsArgsort WF)
open Verif.Opf (Tables BusD GenD BrD Upd write zeroOff readCase bridge_exists readAs exists_as)

noncomputable section

section
variable {srt : List ℕ → List ℕ} (hs : IsArgsort srt) (δ base : ℝ) {c : Index.Case Tables} (w : WF c)
include hs w

/-- **C138 (AC power flow).**  With `δ` degrees added to the angles of all buses every algorithm raises, diverges or succeeds as before; the generator and branch rows are the same, and so are the
bus rows but for the angles, which are `δ` larger up to whole turns. -/
theorem C138_ac (o : PfOpt) {lib : PfLib} (hlib : AngleFree lib) : Option.Rel (SameShifted δ) (runpfAc srt base o lib c) (runpfAc srt base o lib (shiftAngles δ c)) := by
  obtain ⟨c', d, he1, hd, -⟩ := bridge_exists hs base w
  obtain ⟨ar, gc, A, N, od, he2⟩ := shiftAngles_internal (δ := δ) hs w he1
  obtain ⟨_, d2', he', hd2', -⟩ := bridge_exists hs base (shiftAngles_wf (δ := δ) w)
  rw [he2] at he'; cases he'
  have hb : (c'.bus.map (shiftAngle δ)).length = c'.bus.length := List.length_map _
  obtain ⟨d2, hd2⟩ := readAs_exists ⟨d2', hd2'⟩ hb rfl rfl
  rw [runpfAc_via he1 rfl rfl rfl, runpfAc_via he2 hb rfl rfl, readPfAs_shift]
  show Option.Rel _ ((readPf base c').bind _) _
  cases hp : readPf base c' with
  | none => exact .none
  | some p =>
  simp only [Option.map_some, Option.bind_some]
  rw [runAC_spin o hlib]
  cases hq : runAC o.EPS o.viol o.qlim (pickSolver o lib p) p with
  | none => exact .none
  | some q =>
  cases q with
  | nan s => exact .some ⟨rfl, .none⟩
  | ok s =>
  simp only [Option.map_some, Option.bind_some, spinR]
  obtain ⟨r1, hr1⟩ := exists_as hs w he1 (hb := rfl) (hg := rfl) (hl := rfl) (acUpd s)
  obtain ⟨r2, hr2⟩ := exists_as hs (shiftAngles_wf (δ := δ) w) he2 (hb := hb) (hg := rfl) (hl := rfl) (acUpd (spinOut (turnBy δ) s))
  have hsol := runAC_steps hq
  have hfl := shiftAngles_results hs w he1 he2 (h1b := rfl) (h1g := rfl) (h1l := rfl) hd hd2 (acUpd s) (acUpd (spinOut (turnBy δ) s))
    (Q := AngleShifted δ) (fun b => ⟨⟨_, rfl⟩, Or.inr ⟨0, by simp [shiftAngle]⟩⟩) (fun k b => by
      obtain ⟨V0, q, V, PG, -, -, -, -, rfl⟩ := hsol
      refine ⟨⟨_, rfl⟩, ?_⟩
      by_cases hz : V k = 0
      · left
        simp only [acUpd, hz, norm_zero]
      · right
        exact arg_turn δ hz) rfl rfl hr1 hr2
  rw [hr1, hr2]
  exact .some ⟨rfl, .some hfl⟩

/-- **C138 (DC power flow).**  For a case whose islands are tied to slack buses by inductive branches, with `δ` degrees added to the angles of all buses: the same generator and branch rows, and
the same bus rows with angles larger by `δ`. -/
theorem C138_dc {lib : DcLib} (hlib : Solves lib) (hind : Inductive c) (htied : Tied c) :
    ∃ R1 R2, runpfDc srt base lib c = some ⟨true, some R1⟩ ∧ runpfDc srt base lib (shiftAngles δ c) = some ⟨true, some R2⟩ ∧
      R2.bus = R1.bus.map (shiftAngle δ) ∧ R2.gen = R1.gen ∧ R2.branch = R1.branch := by
  obtain ⟨i0, hi0⟩ : ∃ i, IsSlack c i := by
    obtain ⟨b, q1, q2⟩ := w.someOn
    obtain ⟨i, -, -, q3, -⟩ := htied b q1 q2
    exact ⟨i, q3⟩
  obtain ⟨R1, hr⟩ := C87_dc_completes hs w (lib := lib) (base := base) ⟨i0, hi0⟩
  obtain ⟨c', p, he1, hp, hw⟩ := prep_exists hs base w ⟨i0, hi0⟩
  obtain ⟨r0, bp, gp, lp, -, B⟩ := hw ⟨fun _ b => b, fun _ g => g, fun _ l => l⟩
  obtain ⟨hpos, ht⟩ := B.regular w hind htied
  have hu := regular_of_bdc p.branch (· ∈ p.ref) hpos ht
  obtain ⟨_, d, he0, hd, -⟩ := bridge_exists hs base w
  rw [he1] at he0; cases he0
  obtain ⟨ar, gc, A, N, od, he2⟩ := shiftAngles_internal (δ := δ) hs w he1
  obtain ⟨_, d2', he', hd2', -⟩ := bridge_exists hs base (shiftAngles_wf (δ := δ) w)
  rw [he2] at he'; cases he'
  have hb : (c'.bus.map (shiftAngle δ)).length = c'.bus.length := List.length_map _
  obtain ⟨d2, hd2⟩ := readAs_exists ⟨d2', hd2'⟩ hb rfl rfl
  have hp2 := readPfAs_shift (δ := δ) (base := base) (c' := c') (ar := ar) (gc := gc) (A := A) (N := N) (o := od) hb
  rw [hp, Option.map_some] at hp2
  set Va := dcpf (· ∈ p.ref) lib (Bbus p.branch) (dcPbus p.baseMVA p.bus p.gen p.branch) fun k => p.VA k * (Real.pi / 180) with hVa
  have hrow : ∀ i, ∑ j, Bbus p.branch i j = 0 := by
    intro i
    have h1 := congrFun (Bbus_const p.branch (fun _ => 0) 1) i
    simpa [Matrix.mulVec, dotProduct] using h1
  have hVa2 : dcpf (· ∈ p.ref) lib (Bbus p.branch) (dcPbus p.baseMVA p.bus p.gen p.branch) (fun k => (p.VA k + δ) * (Real.pi / 180)) = fun i => Va i + δ * (Real.pi / 180) := by
    simp only [add_mul]
    exact dcpf_shift (· ∈ p.ref) lib hrow hu (fun v => hlib _ v hu) _ _ _
  have hPGeq : dcPG p.baseMVA p.bus p.gen p.branch p.ref (fun i => Va i + δ * (Real.pi / 180)) = dcPG p.baseMVA p.bus p.gen p.branch p.ref Va := by
    unfold dcPG
    rw [Bbus_const]
  have hPF : ∀ l, dcPF p.baseMVA p.branch (fun i => Va i + δ * (Real.pi / 180)) l = dcPF p.baseMVA p.branch Va l := by
    intro l
    unfold dcPF
    rw [Bf_mulVec, Bf_mulVec]
    ring
  have hr' := hr
  unfold runpfDc at hr'
  simp only [he1, hp, Option.bind_eq_bind, Option.bind_some, Option.bind_eq_some_iff, Option.some.injEq, PfRet.mk.injEq, true_and] at hr'
  obtain ⟨PG, hPG, r1, hr1, hR1⟩ := hr'
  obtain ⟨r2, hr2⟩ := exists_as hs (shiftAngles_wf (δ := δ) w) he2 (hb := hb) (hg := rfl) (hl := rfl)
    (dcUpd (withAngles p δ) (fun i => Va i + δ * (Real.pi / 180)) PG)
  have hrun2 := runpfDc_as (lib := lib) he2 hb rfl rfl hp2 (Va := fun i => Va i + δ * (Real.pi / 180)) (PG := PG) hVa2 (hPGeq.trans hPG) hr2
  obtain ⟨k1, k2, k3⟩ := shiftAngles_results hs w he1 he2 (h1b := rfl) (h1g := rfl) (h1l := rfl) hd hd2 (dcUpd p Va PG) (dcUpd (withAngles p δ) (fun i => Va i + δ * (Real.pi / 180)) PG)
    (Q := fun x y => y = shiftAngle δ x) (fun _ => rfl)
    (fun k b => by
      have hpi := Real.pi_ne_zero
      have : (Va k + δ * (Real.pi / 180)) * (180 / Real.pi) = Va k * (180 / Real.pi) + δ := by field_simp
      simp only [shiftAngle, dcUpd, this]) rfl
    (by
      funext l x
      have := hPF l
      simp only [dcUpd, withAngles, this]) hr1 hr2
  exact ⟨R1, _, hr, hrun2, by rw [← hR1]; exact forall₂_map_eq k1, by rw [← hR1]; exact k2, by rw [← hR1]; exact k3⟩

end

/-! ### Concrete cases -/

/-- Changing an unknown that does not occur. -/
theorem zipWith_sum_set : ∀ (r x : List ℝ) (k : ℕ) (v : ℝ), r[k]? = some 0 → (List.zipWith (· * ·) r (x.set k v)).sum = (List.zipWith (· * ·) r x).sum
  | [], _, _, _, h => by simp at h
  | _ :: _, [], _, _, _ => by simp
  | a :: r, b :: x, 0, v, h => by
    have : a = 0 := by simpa using h
    simp [this]
  | a :: r, b :: x, k + 1, v, h => by
    have : r[k]? = some 0 := by simpa using h
    simp [zipWith_sum_set r x k v this]

example : AngleFree exactLib := by
  classical
  refine ⟨fun V J F u hu => rfl, fun V J F k hJ hk => ?_⟩
  simp only [exactLib]
  rw [dif_neg]
  rintro ⟨x, ⟨hl, hx⟩, huniq⟩
  obtain ⟨r, hr⟩ := List.exists_mem_of_ne_nil J hJ
  have hkx : k < x.length := by
    obtain ⟨h1, h2⟩ := hk r hr
    rw [hl, ← h1]
    exact (List.getElem?_eq_some_iff.1 h2).1
  have := huniq (x.set k (x[k] + 1)) ⟨by rw [List.length_set, hl], by
    rw [← hx]
    exact List.map_congr_left fun r hr => zipWith_sum_set r x k _ (hk r hr).2⟩
  have := congrArg (·[k]?) this
  simp only [List.getElem?_set_self hkx, List.getElem?_eq_getElem hkx, Option.some.injEq] at this
  linarith

/-- The bus angles of `exTables` as seen from elsewhere. -/
example : WF Opf.exTables ∧ Solves invLib ∧ Inductive Opf.exTables ∧ Tied Opf.exTables ∧ (shiftAngles 30 Opf.exTables).bus ≠ Opf.exTables.bus := by
  refine ⟨Opf.exTables_wf, invLib_solves, exInductive, exTied, fun h => ?_⟩
  have := congrArg (fun l => l.head?.map fun r => r.data.VA) h
  simp [shiftAngles, shiftAngle, Opf.exTables] at this

end

end Verif.Runpf
