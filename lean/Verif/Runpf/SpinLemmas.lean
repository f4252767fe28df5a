import Verif.Runpf.SpinSpec
import Verif.Runpf.SpinSolvers
import Verif.Runpf.AgainRuns
import Verif.Runpf.TableDc
import Mathlib.Analysis.SpecialFunctions.Complex.Log

/-! Lemmas for C138: runs from turned voltages; tables. -/

open Matrix ComplexConjugate

namespace Verif.Runpf

open Verif.Network Verif.Pfsoln Verif.Solvers
open Verif.Index (BusRow GenRow BranchRow IsArgsort WF GenInService BranchInService Connected posOf)
open Verif.Opf (Tables BusD GenD BrD Upd write zeroOff readCase bridge_exists readAs writeAs bridge_as exists_as)

noncomputable section

/-- The turn by `δ` degrees. -/
def turnBy (δ : ℝ) : ℂ := Complex.exp (Complex.I * ((Real.pi / 180 * δ : ℝ) : ℂ))

theorem turnBy_norm (δ : ℝ) : ‖turnBy δ‖ = 1 := by
  unfold turnBy
  rw [mul_comm, Complex.norm_exp_ofReal_mul_I]

theorem arg_turn (δ : ℝ) {z : ℂ} (hz : z ≠ 0) : ∃ m : ℤ, (turnBy δ * z).arg * 180 / Real.pi = z.arg * 180 / Real.pi + δ + 360 * m := by
  have h := exp_arg_spin (B := Unit) (turnBy_norm δ) (fun _ => z) () hz
  simp only [spin] at h
  unfold turnBy at h ⊢
  rw [← Complex.exp_add, Complex.exp_eq_exp_iff_exists_int] at h
  obtain ⟨m, hm⟩ := h
  refine ⟨m, ?_⟩
  have hm' : ((Complex.exp (Complex.I * ((Real.pi / 180 * δ : ℝ) : ℂ)) * z).arg : ℂ) = ((Real.pi / 180 * δ + z.arg + m * (2 * Real.pi) : ℝ) : ℂ) := by
    apply mul_left_cancel₀ Complex.I_ne_zero
    rw [hm]
    push_cast
    ring
  have := Complex.ofReal_injective hm'
  rw [this]
  have hp := Real.pi_ne_zero
  field_simp
  ring

section
variable {B L : Type} [Fintype B] [Fintype L] [DecidableEq B] [DecidableEq L] {ng : ℕ}

/-- The internal case with shifted angles. -/
def withAngles (p : Case B L ng) (δ : ℝ) : Case B L ng := { p with VA := fun b => p.VA b + δ }

/-- The result with turned voltages. -/
def spinOut (u : ℂ) (o : Out B L ng) : Out B L ng := { o with V := spin u o.V, VA := fun b => (spin u o.V b).arg * 180 / Real.pi }

def spinR (u : ℂ) : Result B L ng → Result B L ng
  | .ok o => .ok (spinOut u o)
  | .nan s => .nan s

omit [Fintype L] [DecidableEq L] in
theorem initialV_spin (δ : ℝ) (p : Case B L ng) : initialV (withAngles p δ) = (initialV p).map (spin (turnBy δ)) := by
  have hu := turnBy_norm δ
  have hf : ∀ b, flat (withAngles p δ) b = turnBy δ * flat p b := by
    intro b
    unfold flat turnBy withAngles
    simp only
    rw [mul_left_comm, ← Complex.exp_add]
    congr 2
    push_cast
    ring
  unfold initialV
  have hset : ∀ b, setters (withAngles p δ) b = setters p b := fun b => rfl
  simp only [hf, hset, mul_eq_zero, ne_of_norm hu, false_or, norm_mul, hu, one_mul]
  split_ifs
  · rfl
  · rw [Option.map_some]
    congr 1
    funext b
    show _ = turnBy δ * _
    dsimp only
    cases (setters p b).getLast? with
    | none => rfl
    | some g => simp only [withAngles]; ring

variable {u : ℂ} (hu : ‖u‖ = 1)
include hu

theorem solution_spin (EPS δ : ℝ) (p : Case B L ng) (V : B → ℂ) (s : Bool) : solution EPS (withAngles p δ) (spin u V) s = (solution EPS p V s).map (spinOut u) := by
  have hS : ∀ Y : Matrix B B ℂ, Sinj Y (spin u V) = Sinj Y V := fun Y => funext fun b => power_spin hu Y V b
  have hP : ∀ (l : List B) (PG : Fin ng → ℝ), newPG p.baseMVA p.bus p.gen (Ybus p.baseMVA p.bus p.branch) (spin u V) l PG =
      newPG p.baseMVA p.bus p.gen (Ybus p.baseMVA p.bus p.branch) V l PG := by
    intro l
    induction l with
    | nil => intro PG; rfl
    | cons r l ih =>
      intro PG
      unfold newPG slackStep
      rw [hS]
      congr 1
      funext PG
      exact ih PG
  have hQ : newQG EPS p.baseMVA p.bus p.gen (Ybus p.baseMVA p.bus p.branch) (spin u V) = newQG EPS p.baseMVA p.bus p.gen (Ybus p.baseMVA p.bus p.branch) V := by
    funext g
    unfold newQG qTotal
    rw [hS]
  have hm : ∀ (M : Matrix L B ℂ) l, (M *ᵥ spin u V) l = u * (M *ᵥ V) l := by
    intro M l
    simp only [Matrix.mulVec, dotProduct, Finset.mul_sum, spin]
    exact Finset.sum_congr rfl fun j _ => by ring
  have h1 := mul_conj_one hu
  have hF : brFrom p.baseMVA p.branch (Yf p.branch) (spin u V) = brFrom p.baseMVA p.branch (Yf p.branch) V := by
    funext l
    unfold brFrom
    rw [hm]
    simp only [spin, map_mul]
    split_ifs
    · rfl
    · linear_combination (V (p.branch l).f * conj ((Yf p.branch *ᵥ V) l) * p.baseMVA) * h1
  have hT : brTo p.baseMVA p.branch (Yt p.branch) (spin u V) = brTo p.baseMVA p.branch (Yt p.branch) V := by
    funext l
    unfold brTo
    rw [hm]
    simp only [spin, map_mul]
    split_ifs
    · rfl
    · linear_combination (V (p.branch l).t * conj ((Yt p.branch *ᵥ V) l) * p.baseMVA) * h1
  unfold solution
  simp only [withAngles]
  rw [hP, hQ, hF, hT, Option.map_map]
  congr 1
  funext PG
  simp only [spinOut, Function.comp, norm_spin hu]

theorem finish_spin (EPS viol δ : ℝ) (qlim : Bool) (p : Case B L ng) (r : Res B) :
    finish EPS viol qlim (withAngles p δ) ⟨r.V.map (spin u), r.converged, r.i⟩ = (finish EPS viol qlim p r).map (spinR u) := by
  unfold finish
  cases r.V with
  | none => rfl
  | some V =>
  simp only [Option.map_some]
  rw [solution_spin hu]
  cases solution EPS p V r.converged with
  | none => rfl
  | some o =>
  simp only [Option.map_some, Option.bind_some]
  rw [show violation viol (withAngles p δ) (spinOut u o) = violation viol p o from rfl]
  split <;> rfl

end

theorem pickSolver_spin {nb nl ng : ℕ} (o : PfOpt) {lib : PfLib} (hlib : AngleFree lib) (p : Case (Fin nb) (Fin nl) ng) (δ : ℝ) {u : ℂ} (hu : ‖u‖ = 1) (S V0 : Fin nb → ℂ) :
    pickSolver o lib (withAngles p δ) S (spin u V0) = (pickSolver o lib p S V0).map fun r => ⟨r.V.map (spin u), r.converged, r.i⟩ := by
  unfold pickSolver
  simp only [withAngles]
  split_ifs
  · exact newtonpf_spin hu lib.lin (fun V J F => hlib.lin V J F u hu) (fun V J F k => hlib.singular V J F k) _ S V0 p.pv p.pq o.tol o.maxIt
  · exact fdpf_spin hu _ S V0 _ _ _ p.pv p.pq o.tol o.maxItFd
  · exact gausspf_spin hu _ S V0 p.pv p.pq o.tol o.maxItGs
  · rfl

theorem runAC_spin {nb nl ng : ℕ} (o : PfOpt) {lib : PfLib} (hlib : AngleFree lib) (p : Case (Fin nb) (Fin nl) ng) (δ : ℝ) :
    runAC o.EPS o.viol o.qlim (pickSolver o lib (withAngles p δ)) (withAngles p δ) = (runAC o.EPS o.viol o.qlim (pickSolver o lib p) p).map (spinR (turnBy δ)) := by
  have hu := turnBy_norm δ
  unfold runAC
  rw [initialV_spin]
  cases initialV p with
  | none => rfl
  | some V0 =>
  simp only [Option.map_some]
  rw [pickSolver_spin o hlib p δ hu]
  show ((pickSolver o lib p (makeSbus p.baseMVA p.bus fun g => (p.gen g).toGen) V0).map _).bind _ = _
  cases pickSolver o lib p (makeSbus p.baseMVA p.bus fun g => (p.gen g).toGen) V0 with
  | none => rfl
  | some r => exact finish_spin hu o.EPS o.viol δ o.qlim p r

/-! ### Tables -/

theorem shiftAngles_same (δ : ℝ) (c : Index.Case Tables) : SameData c (shiftAngles δ c) where
  bus := by
    show _ = (c.bus.map (shiftAngle δ)).map pfBusInput
    rw [List.map_map]
    rfl
  gen := rfl
  branch := rfl
  gencost := rfl
  A := rfl
  N := rfl

theorem shiftAngles_wf {δ : ℝ} {c : Index.Case Tables} (w : WF c) : WF (shiftAngles δ c) := (shiftAngles_same δ c).wf w w.areaRef w.notInternal

theorem shiftAngles_busI (δ : ℝ) (c : Index.Case Tables) : Index.busI (shiftAngles δ c) = (Index.busI c).map (shiftAngle δ) := by
  unfold Index.busI
  rw [← (shiftAngles_same δ c).i2e]
  show ((c.bus.map (shiftAngle δ)).filter _).map _ = _
  rw [List.filter_map, List.map_map, List.map_map]
  rfl

theorem shiftAngles_internal {δ : ℝ} {c : Index.Case Tables} {srt : List ℕ → List ℕ} (hs : IsArgsort srt) (w : WF c) {c' : Index.Case Tables} (he : Index.ext2int srt c = some c') :
    ∃ ar gc A N o, Index.ext2int srt (shiftAngles δ c) = some { c' with bus := c'.bus.map (shiftAngle δ), areas := ar, gencost := gc, A := A, N := N, order := o } := by
  obtain ⟨gen, gc, A, N, h1, h2, -⟩ := Index.ext2int_result hs w
  obtain ⟨gen2, gc2, A2, N2, k1, k2, k3, k4, k5⟩ := Index.ext2int_result hs (shiftAngles_wf (δ := δ) w)
  rw [he] at h1
  cases h1
  have S := shiftAngles_same δ c
  have hk : Index.genK (γ := GenD) (shiftAngles δ c).bus = Index.genK c.bus := by funext g; simp only [Index.genK, S.connB]
  have hg : Index.genU (shiftAngles δ c) = Index.genU c := by
    unfold Index.genU
    rw [← S.i2e, hk]
    rfl
  have hl : Index.brI (shiftAngles δ c) = Index.brI c := by
    have hk : Index.brK (δ := BrD) (shiftAngles δ c).bus = Index.brK c.bus := by funext g; simp only [Index.brK, S.connB]
    unfold Index.brI
    rw [← S.i2e, hk]
    rfl
  rw [hg, h2] at k2
  cases k2
  refine ⟨(Index.areas' (shiftAngles δ c)).map (fun _ => Index.arI (shiftAngles δ c)), gc2, A2, N2, some (Index.orderOf srt (shiftAngles δ c)), ?_⟩
  rw [k1]
  unfold Index.intCase
  rw [shiftAngles_busI, hl]

theorem runpfAc_via {nb ng nl : ℕ} {srt : List ℕ → List ℕ} {base : ℝ} {o : PfOpt} {lib : PfLib} {c c' : Index.Case Tables} (he : Index.ext2int srt c = some c')
    (hb : c'.bus.length = nb) (hg : c'.gen.length = ng) (hl : c'.branch.length = nl) :
    runpfAc srt base o lib c = (readPfAs base c' hb hg hl).bind fun p => (runAC o.EPS o.viol o.qlim (pickSolver o lib p) p).bind fun q =>
      match q with
      | .nan s => some ⟨s, none⟩
      | .ok s => (Index.int2ext (writeAs c' hb hg hl (acUpd s))).map fun r => ⟨s.success, some (zeroOff pfOff r)⟩ := by
  subst hb hg hl
  unfold runpfAc
  rw [he]
  show (readPf base c').bind _ = (readPf base c').bind _
  cases readPf base c' with
  | none => rfl
  | some p =>
    simp only [Option.bind_some, Option.bind_eq_bind]
    congr 1
    funext q
    cases q <;> rfl

theorem readPfAs_shift {δ base : ℝ} {c' : Index.Case Tables} {ar gc A N o} (hb : (c'.bus.map (shiftAngle δ)).length = c'.bus.length) :
    readPfAs base { c' with bus := c'.bus.map (shiftAngle δ), areas := ar, gencost := gc, A := A, N := N, order := o } hb rfl rfl = (readPf base c').map fun p => withAngles p δ := by
  have ht : (c'.bus.map (shiftAngle δ)).map (·.typ) = c'.bus.map (·.typ) := by rw [List.map_map]; rfl
  unfold readPfAs readAs readPf readCase
  simp only [ht]
  split_ifs with h1 h2 h3
  · simp only [Option.bind_eq_bind, Option.bind_some]
    cases Bustypes.bustypes (c'.bus.map (·.typ)) (c'.gen.map fun g => ⟨g.bus, g.status⟩) with
    | none => rfl
    | some t =>
      simp only [Option.bind_some, Option.map_some, withAngles, List.getElem_map, shiftAngle]
      rfl
  · exact absurd h1 h2
  · exact absurd h3 h1
  · rfl

section
variable {srt : List ℕ → List ℕ} (hs : IsArgsort srt) {base δ : ℝ} {c : Index.Case Tables} (w : WF c) {nb ng nl : ℕ}
  {c' c2 : Index.Case Tables} (he1 : Index.ext2int srt c = some c') (he2 : Index.ext2int srt (shiftAngles δ c) = some c2)
  {h1b : c'.bus.length = nb} {h1g : c'.gen.length = ng} {h1l : c'.branch.length = nl} {h2b : c2.bus.length = nb} {h2g : c2.gen.length = ng} {h2l : c2.branch.length = nl}
  {d d2 : Opf.Case nb ng nl} (hd : readAs base c' h1b h1g h1l = some d) (hd2 : readAs base c2 h2b h2g h2l = some d2)
include hs w he1 he2 hd hd2

/-- The results of the two internal cases, put back. -/
theorem shiftAngles_results (u1 u2 : Upd nb ng nl) {Q : BusRow BusD → BusRow BusD → Prop} (hoff : ∀ b, Q b (shiftAngle δ b))
    (hub : ∀ k (b : BusRow BusD), Q { b with data := u1.bus k b.data } { shiftAngle δ b with data := u2.bus k (shiftAngle δ b).data })
    (hug : u2.gen = u1.gen) (hul : u2.branch = u1.branch) {r1 r2 : Index.Case Tables} (hr1 : Index.int2ext (writeAs c' h1b h1g h1l u1) = some r1)
    (hr2 : Index.int2ext (writeAs c2 h2b h2g h2l u2) = some r2) :
    List.Forall₂ Q (zeroOff pfOff r1).bus (zeroOff pfOff r2).bus ∧ (zeroOff pfOff r2).gen = (zeroOff pfOff r1).gen ∧ (zeroOff pfOff r2).branch = (zeroOff pfOff r1).branch := by
  have S := shiftAngles_same δ c
  obtain ⟨bp1, gp1, lp1, B1, -, pb1, pg1, pl1⟩ := bridge_as hs w he1 hd u1 hr1 pfOff
  obtain ⟨bp2, gp2, lp2, B2, -, pb2, pg2, pl2⟩ := bridge_as hs (shiftAngles_wf w) he2 hd2 u2 hr2 pfOff
  have ebp : ∀ i, bp2 i = bp1 i := fun i => Option.some.inj ((pb2 i).symm.trans (by rw [← S.pos]; exact pb1 i))
  have egp : ∀ i, gp2 i = gp1 i := fun i => Option.some.inj ((pg2 i).symm.trans (by rw [← S.pos]; exact pg1 i))
  have elp : ∀ i, lp2 i = lp1 i := fun i => Option.some.inj ((pl2 i).symm.trans (by rw [← S.pos]; exact pl1 i))
  have hgin : ∀ g, GenInService (shiftAngles δ c) g ↔ GenInService c g := fun g => by
    unfold GenInService
    rw [S.connected]
  have hlin : ∀ l, BranchInService (shiftAngles δ c) l ↔ BranchInService c l := fun l => by
    unfold BranchInService
    rw [S.connected, S.connected]
  refine ⟨?_, ?_, ?_⟩
  · rw [List.forall₂_iff_get]
    have hlen : (zeroOff pfOff r1).bus.length = (zeroOff pfOff r2).bus.length := by
      rw [B1.busLen, B2.busLen]
      show _ = (c.bus.map (shiftAngle δ)).length
      rw [List.length_map]
    refine ⟨hlen, fun i i1 i2 => ?_⟩
    have x1 : (zeroOff pfOff r1).bus[i]? = some ((zeroOff pfOff r1).bus.get ⟨i, i1⟩) := List.getElem?_eq_getElem i1
    have x2 : (zeroOff pfOff r2).bus[i]? = some ((zeroOff pfOff r2).bus.get ⟨i, i2⟩) := List.getElem?_eq_getElem i2
    have i3 : i < c.bus.length := B1.busLen ▸ i1
    have hx : c.bus[i]? = some c.bus[i] := List.getElem?_eq_getElem i3
    have hx2 : (shiftAngles δ c).bus[i]? = some (shiftAngle δ c.bus[i]) := by
      show (c.bus.map (shiftAngle δ))[i]? = _
      rw [List.getElem?_map, hx]; rfl
    by_cases ht : c.bus[i].typ = 4
    · rw [Option.some.inj (x1.symm.trans (B1.busOff i _ hx ht)), Option.some.inj (x2.symm.trans (B2.busOff i _ hx2 ht))]
      exact hoff _
    · obtain ⟨j, rfl⟩ := B1.busOn i _ hx ht
      obtain ⟨b', e1, -, e2, -⟩ := B1.bus j
      have q1 := Option.some.inj (e1.symm.trans hx)
      subst q1
      obtain ⟨b', e3, -, e4, -⟩ := B2.bus j
      rw [ebp] at e3 e4
      have q2 := Option.some.inj (e3.symm.trans hx2)
      subst q2
      rw [Option.some.inj (x1.symm.trans e2), Option.some.inj (x2.symm.trans e4)]
      exact hub j _
  · refine List.ext_getElem? fun i => ?_
    cases hx : c.gen[i]? with
    | none =>
      rw [List.getElem?_eq_none_iff] at hx
      rw [List.getElem?_eq_none_iff.2 (by rw [B2.genLen]; exact hx), List.getElem?_eq_none_iff.2 (by rw [B1.genLen]; exact hx)]
    | some g =>
      have hx2 : (shiftAngles δ c).gen[i]? = some g := hx
      by_cases hin : GenInService c g
      · obtain ⟨j, rfl⟩ := B1.genOn i g hx hin
        obtain ⟨b', e1, -, e2, -⟩ := B1.gen j
        rw [hx] at e1; cases e1
        obtain ⟨b', e3, -, e4, -⟩ := B2.gen j
        rw [egp, hx2] at e3; cases e3
        rw [egp] at e4
        rw [e2, e4, hug]
      · rw [B1.genOff i g hx hin, B2.genOff i g hx2 ((hgin g).not.2 hin)]
  · refine List.ext_getElem? fun i => ?_
    cases hx : c.branch[i]? with
    | none =>
      rw [List.getElem?_eq_none_iff] at hx
      rw [List.getElem?_eq_none_iff.2 (by rw [B2.brLen]; exact hx), List.getElem?_eq_none_iff.2 (by rw [B1.brLen]; exact hx)]
    | some l =>
      have hx2 : (shiftAngles δ c).branch[i]? = some l := hx
      by_cases hin : BranchInService c l
      · obtain ⟨j, rfl⟩ := B1.brOn i l hx hin
        obtain ⟨b', e1, -, e2, -⟩ := B1.branch j
        rw [hx] at e1; cases e1
        obtain ⟨b', e3, -, e4, -⟩ := B2.branch j
        rw [elp, hx2] at e3; cases e3
        rw [elp] at e4
        rw [e2, e4, hul]
      · rw [B1.brOff i l hx hin, B2.brOff i l hx2 ((hlin l).not.2 hin)]

end

/-! ### DC power flow -/

theorem Bbus_const {B L : Type} [Fintype B] [Fintype L] [DecidableEq B] [DecidableEq L] (branch : L → Branch B) (θ : B → ℝ) (a : ℝ) :
    Bbus branch *ᵥ (fun i => θ i + a) = Bbus branch *ᵥ θ := by
  rw [Bbus_mulVec, Bbus_mulVec]
  congr 1
  funext l
  rw [Bf_mulVec, Bf_mulVec]
  ring

theorem dcpf_shift {B : Type} [Fintype B] [DecidableEq B] (isRef : B → Prop) [DecidablePred isRef]
    (solve : Matrix {i : B // ¬ isRef i} {i : B // ¬ isRef i} ℝ → ({i : B // ¬ isRef i} → ℝ) → ({i : B // ¬ isRef i} → ℝ)) {M : Matrix B B ℝ} (hrow : ∀ i, ∑ j, M i j = 0)
    (hu : IsUnit (Matrix.det fun i j : {i : B // ¬ isRef i} => M i.1 j.1)) (hsolve : ∀ v, Matrix.mulVec (fun i j : {i : B // ¬ isRef i} => M i.1 j.1) (solve (fun i j => M i.1 j.1) v) = v)
    (P Va : B → ℝ) (a : ℝ) : dcpf isRef solve M P (fun i => Va i + a) = fun i => dcpf isRef solve M P Va i + a := by
  set N : Matrix {i : B // ¬ isRef i} {i : B // ¬ isRef i} ℝ := fun i j => M i.1 j.1 with hN
  have hinj : Function.Injective N.mulVec := Matrix.mulVec_injective_iff_isUnit.2 ((Matrix.isUnit_iff_isUnit_det N).2 hu)
  have key : solve N (fun i => P i.1 - ∑ r : {r : B // isRef r}, M i.1 r.1 * (Va r.1 + a)) =
      fun i => solve N (fun i => P i.1 - ∑ r : {r : B // isRef r}, M i.1 r.1 * Va r.1) i + a := by
    apply hinj
    rw [hsolve]
    have e : (fun i => solve N (fun i => P i.1 - ∑ r : {r : B // isRef r}, M i.1 r.1 * Va r.1) i + a) =
        solve N (fun i => P i.1 - ∑ r : {r : B // isRef r}, M i.1 r.1 * Va r.1) + fun _ => a := rfl
    rw [e, Matrix.mulVec_add, hsolve]
    funext i
    simp only [Pi.add_apply, Matrix.mulVec, dotProduct, hN, mul_add, Finset.sum_add_distrib, ← Finset.sum_mul]
    have h0 := hrow i.1
    rw [← Fintype.sum_subtype_add_sum_subtype isRef] at h0
    linear_combination (-a) * h0
  funext i
  unfold dcpf
  simp only
  split_ifs
  · rfl
  · exact congrFun key _

theorem forall₂_map_eq {α : Type} {f : α → α} : ∀ {xs ys : List α}, List.Forall₂ (fun x y => y = f x) xs ys → ys = xs.map f
  | [], [], _ => rfl
  | _ :: _, _ :: _, .cons h t => by rw [List.map_cons, h, forall₂_map_eq t]

end

end Verif.Runpf
