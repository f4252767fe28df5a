import Verif.Opf.StartLemmas
import Verif.Opf.CurveLemmas

/-! Lemmas: models that differ in initial values only have the same solution; the runs of two cases of the same system agree. -/

namespace Verif.Opf

open Verif.Index (BusRow GenRow BranchRow IsArgsort WF GenInService BranchInService Connected HasBus)
open Verif.OpfModel Verif.Pips Verif.Network Verif.NumPy

noncomputable section

/-! ### Initial values -/

/-- The same call, but for initial values. -/
inductive SameOp : Op → Op → Prop
  | refl (a) : SameOp a a
  | vars (name n v w vl vu) : SameOp (.addVars name n v vl vu) (.addVars name n w vl vu)

/-- The same model, but for initial values. -/
def SameModel (m1 m2 : Model) : Prop := ∃ w, m2 = { m1 with v0 := w } ∧ ∀ k, (w k).isSome = (m1.v0 k).isSome

theorem width_v0 (m : Model) (w : Dict (List EReal)) (vs : List String) : Model.width { m with v0 := w } vs = m.width vs := by
  induction vs with
  | nil => rfl
  | cons v vs ih => simp only [Model.width, ih]

theorem step_same {m1 m2 m1' : Model} {a b : Op} (hm : SameModel m1 m2) (ho : SameOp a b) (h : step m1 a = some m1') :
    ∃ m2', step m2 b = some m2' ∧ SameModel m1' m2' := by
  obtain ⟨w, rfl, hw⟩ := hm
  cases ho with
  | vars name n v v' vl vu =>
    injection h with h
    subst h
    refine ⟨_, rfl, w.set name (orDefault n 0 v'), rfl, fun k => ?_⟩
    simp only [Dict.set, Model.addVars]
    by_cases e : k = name <;> simp [e, hw]
  | refl =>
    cases a with
    | addVars name n v vl vu =>
      injection h with h
      subst h
      refine ⟨_, rfl, w.set name (orDefault n 0 v), rfl, fun k => ?_⟩
      simp only [Dict.set, Model.addVars]
      by_cases e : k = name <;> simp [e, hw]
    | addNln name n =>
      injection h with h
      subst h
      exact ⟨_, rfl, w, rfl, hw⟩
    | addLin name A l u vs =>
      simp only [step, Model.addLin, Option.bind_eq_bind, Option.bind_eq_some_iff] at h ⊢
      obtain ⟨n, h1, h2⟩ := h
      injection h2 with h2
      subst h2
      refine ⟨_, ⟨n, ?_, rfl⟩, w, rfl, hw⟩
      rw [← h1]
      exact width_v0 m1 w _
    | addCosts name cp vs =>
      simp only [step, Model.addCosts, Option.bind_eq_bind, Option.bind_eq_some_iff] at h ⊢
      obtain ⟨n, h1, h2⟩ := h
      split at h2
      · cases h2
      split at h2
      · cases h2
      split at h2
      · cases h2
      rename_i k1 k2 k3
      injection h2 with h2
      subst h2
      refine ⟨_, ⟨n, ?_, ?_⟩, w, rfl, hw⟩
      · rw [← h1]
        exact width_v0 m1 w _
      · rw [if_neg k1, if_neg k2, if_neg k3]

theorem run_same {a b : List Op} (h : List.Forall₂ SameOp a b) {m : Model} (hm : OpfModel.run a = some m) : ∃ w, OpfModel.run b = some { m with v0 := w } ∧
    ∀ k, (w k).isSome = (m.v0 k).isSome := by
  have key : ∀ {a b : List Op}, List.Forall₂ SameOp a b → ∀ {m1 m2 m : Model}, SameModel m1 m2 → a.foldlM step m1 = some m → ∃ m', b.foldlM step m2 = some m' ∧ SameModel m m' := by
    intro a b h
    induction h with
    | nil =>
      intro m1 m2 m hm e
      cases e
      exact ⟨_, rfl, hm⟩
    | cons h1 h2 ih =>
      intro m1 m2 m hm e
      rw [List.foldlM_cons] at e
      obtain ⟨m1', e1, e2⟩ := Option.bind_eq_some_iff.1 e
      obtain ⟨m2', e3, hm'⟩ := step_same hm h1 e1
      obtain ⟨m', e4, hs⟩ := ih hm' e2
      refine ⟨m', ?_, hs⟩
      rw [List.foldlM_cons]
      exact Option.bind_eq_some_iff.2 ⟨m2', e3, e4⟩
  obtain ⟨m', e, w, rfl, hw⟩ := key h ⟨_, rfl, fun _ => rfl⟩ hm
  exact ⟨w, e, hw⟩

theorem catBlocks_some {d e : Dict (List EReal)} (h : ∀ k, (e k).isSome = (d k).isSome) (vs : List String) : (catBlocks e vs).isSome = (catBlocks d vs).isSome := by
  induction vs with
  | nil => rfl
  | cons v vs ih =>
    have := h v
    simp only [catBlocks, Option.bind_eq_bind]
    cases h1 : e v <;> cases h2 : d v <;> simp_all
    cases h3 : catBlocks e vs <;> cases h4 : catBlocks d vs <;> simp_all

/-- Bounds do not depend on initial values. -/
theorem getv_v0 (m : Model) {w : Dict (List EReal)} (hw : ∀ k, (w k).isSome = (m.v0 k).isSome) :
    (Model.getv { m with v0 := w } none).map Prod.snd = (m.getv none).map Prod.snd := by
  have := catBlocks_some hw m.var.names
  simp only [Model.getv, Option.bind_eq_bind]
  cases h1 : catBlocks w m.var.names <;> cases h2 : catBlocks m.v0 m.var.names <;> simp_all

theorem linearConstraints_v0 (m : Model) (w : Dict (List EReal)) : Model.linearConstraints { m with v0 := w } = m.linearConstraints := rfl

theorem linearOf_v0 (m : Model) {w : Dict (List EReal)} (hw : ∀ k, (w k).isSome = (m.v0 k).isSome) : linearOf { m with v0 := w } = linearOf m := by
  have key : ∀ m : Model, linearOf m = m.linearConstraints.bind fun lc => ((m.getv none).map Prod.snd).map fun v => 
       { nA := m.lin.total
         A := (lc.map LinAcc.A).getD (fun _ _ => 0)
         l := (lc.map LinAcc.l).getD (fun _ => ⊥)
         u := (lc.map LinAcc.u).getD (fun _ => ⊤)
         xmin := fun k => v.1.getD k ⊥
         xmax := fun k => v.2.getD k ⊤ } := by
    intro m
    unfold linearOf
    cases m.linearConstraints <;> cases m.getv none <;> rfl
  rw [key, key, getv_v0 m hw]
  rfl

theorem interior_v0 (m : Model) {w : Dict (List EReal)} (hw : ∀ k, (w k).isSome = (m.v0 k).isSome) (ref y : ℝ) (k : ℕ) :
    interior { m with v0 := w } ref y k = interior m ref y k := by
  have := getv_v0 m hw
  unfold interior
  have e : ∀ n, inBlock { m with v0 := w } n k = inBlock m n k := fun n => rfl
  rw [e, e]
  split
  · rfl
  split
  · rfl
  cases h1 : Model.getv { m with v0 := w } none <;> cases h2 : m.getv none <;> simp_all

/-! ### Formulations of the same system -/

variable {nb ng nl : ℕ}

theorem SameCase.vaBounds {d1 d2 : Case nb ng nl} (h : SameCase d1 d2) : d2.val = d1.val ∧ d2.vau = d1.vau := by
  obtain ⟨h1, h2, -⟩ := h
  have e : d2.isRef = d1.isRef := by rw [h1]
  constructor <;>
  · simp only [Case.val, Case.vau, e]
    refine congrArg List.ofFn (funext fun k => ?_)
    by_cases hk : d1.isRef k = true
    · simp only [hk, if_true, Case.vaRad, h2 k hk]
    · simp only [if_neg hk]

theorem SameCase.negCg {d1 d2 : Case nb ng nl} (h : SameCase d1 d2) : d2.negCg = d1.negCg := by
  unfold Case.negCg
  have : (fun g => (d2.gen g).bus) = fun g => (d1.gen g).bus := funext fun g => (h.gen g).1
  rw [this]

theorem dcOps_same {d1 d2 : Case nb ng nl} (h : SameCase d1 d2) : List.Forall₂ SameOp (dcOps d1) (dcOps d2) := by
  have hb := h.vaBounds
  have hc := h.negCg
  unfold dcOps
  rw [hb.1, hb.2, hc]
  obtain ⟨h1, -, -⟩ := h
  generalize d2.va = va at h1 ⊢
  generalize d2.vm = vm at h1
  generalize d2.gen = gen at h1 ⊢
  subst h1
  exact .cons (.vars ..) (.cons (.vars ..) (.cons (.refl _) (.cons (.refl _) (.cons (.refl _) .nil))))

theorem acOps_same {d1 d2 : Case nb ng nl} (h : SameCase d1 d2) : List.Forall₂ SameOp (acOps d1) (acOps d2) := by
  have hb := h.vaBounds
  unfold acOps
  rw [hb.1, hb.2]
  obtain ⟨h1, -, -⟩ := h
  generalize d2.va = va at h1 ⊢
  generalize d2.vm = vm at h1 ⊢
  generalize d2.gen = gen at h1 ⊢
  subst h1
  exact .cons (.vars ..) (.cons (.vars ..) (.cons (.vars ..) (.cons (.vars ..) (.cons (.refl _) (.cons (.refl _) (.cons (.refl _) (.cons (.refl _) .nil)))))))

theorem dcopfSolver_same {d1 d2 : Case nb ng nl} (h : SameCase d1 d2) (m : Model) {w : Dict (List EReal)} (hw : ∀ k, (w k).isSome = (m.v0 k).isSome)
    (H : Matrix (Fin m.var.total) (Fin m.var.total) ℝ) (C : Fin m.var.total → ℝ) (C0 : ℝ) (o : Opt) (solve : AnySolver) (x0 : Fin m.var.total → ℝ) :
    dcopfSolver d2 { m with v0 := w } H C C0 o solve x0 = dcopfSolver d1 m H C C0 o solve x0 := by
  unfold dcopfSolver
  rw [linearOf_v0 m hw, h.rest]
  rfl

/-- Without the outputs stored in the generator table. -/
def strip {n : ℕ} (D : OpfNl.Nl nb ng n) : OpfNl.Nl nb ng n := { D with gen := fun g => { D.gen g with PG := 0, QG := 0 } }

theorem strip_callbacks {n : ℕ} (D : OpfNl.Nl nb ng n) (k : ℕ) : callbacks (strip D) k = callbacks D k ∧ (Evaluable (strip D) ↔ Evaluable D) := ⟨rfl, Iff.rfl⟩

theorem nlOf_strip {d1 d2 : Case nb ng nl} (h : SameCase d1 d2) (lim : Int) (c : OpfCost.AcData) (a b e f : ℕ) :
    ∃ gen, d2 = { d1 with va := d2.va, vm := d2.vm, gen := gen } ∧ strip (nlOf { d1 with va := d2.va, vm := d2.vm, gen := gen } lim c a b e f) = strip (nlOf d1 lim c a b e f) := by
  refine ⟨d2.gen, h.rest, ?_⟩
  have : (fun g => { d2.gen g with PG := 0, QG := 0 }) = fun g => { d1.gen g with PG := 0, QG := 0 } := by
    funext g
    obtain ⟨h1, h2⟩ := h.gen g
    cases hg : d2.gen g
    cases hg' : d1.gen g
    rw [hg, hg'] at h1 h2
    simp only at h1 h2
    rw [h1, h2]
  unfold strip nlOf
  simp only at this ⊢
  rw [this]
  rfl

theorem pipsopfSolver_same {d1 d2 : Case nb ng nl} (h : SameCase d1 d2) (lim : Int) (c : OpfCost.AcData) (m : Model) {w : Dict (List EReal)}
    (hw : ∀ k, (w k).isSome = (m.v0 k).isSome) (o : Opt) (solve : AnySolver) (x0 : Fin m.var.total → ℝ) :
    pipsopfSolver d2 lim c { m with v0 := w } o solve x0 = pipsopfSolver d1 lim c m o solve x0 := by
  have hg : ∀ k, (d2.gen k).bus = (d1.gen k).bus := fun k => (h.gen k).1
  have hn : ∀ a b e f, callbacks (nlOf { d1 with va := d2.va, vm := d2.vm, gen := d2.gen } lim c a b e f) m.var.total = callbacks (nlOf d1 lim c a b e f) m.var.total ∧
      (Evaluable (nlOf { d1 with va := d2.va, vm := d2.vm, gen := d2.gen } lim c a b e f) ↔ Evaluable (nlOf d1 lim c a b e f)) := by
    intro a b e f
    obtain ⟨gen, h1, h2⟩ := nlOf_strip h lim c a b e f
    have hge : gen = d2.gen := by
      have := congrArg Case.gen h1
      exact this.symm
    subst hge
    rw [← (strip_callbacks _ _).1, ← (strip_callbacks _ m.var.total).2, h2]
    exact strip_callbacks _ _
  have hr := h.rest
  generalize d2.va = va at *
  generalize d2.vm = vm at *
  generalize d2.gen = gen at *
  subst hr
  unfold pipsopfSolver
  rw [linearOf_v0 m hw]
  refine congrArg (Option.bind (linearOf m)) (funext fun q => ?_)
  refine congrArg (Option.bind (m.var.i1 "Va")) (funext fun iVa => ?_)
  refine congrArg (Option.bind (m.var.i1 "Vm")) (funext fun iVm => ?_)
  refine congrArg (Option.bind (m.var.i1 "Pg")) (funext fun iPg => ?_)
  refine congrArg (Option.bind (m.var.i1 "Qg")) (funext fun iQg => ?_)
  refine congrArg (Option.bind (m.nln.i1 "Pmis")) (funext fun jP => ?_)
  refine congrArg (Option.bind (m.nln.i1 "Qmis")) (funext fun jQ => ?_)
  obtain ⟨k1, k2⟩ := hn iVa iVm iPg iQg
  by_cases hE : Evaluable (nlOf d1 lim c iVa iVm iPg iQg)
  · rw [if_neg (not_not.2 hE), if_neg (not_not.2 (k2.2 hE))]
    simp only [hg]
    exact congrArg (fun C => Option.bind (pipsFull C q o (solve _ _) x0) _) k1
  · rw [if_pos hE, if_pos fun hh => hE (k2.1 hh)]

end

end Verif.Opf
