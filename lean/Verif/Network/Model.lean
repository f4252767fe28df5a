import Mathlib.Analysis.SpecialFunctions.Exp
import Mathlib.Analysis.SpecialFunctions.Trigonometric.Basic
import Mathlib.Data.Matrix.Mul
import Mathlib.LinearAlgebra.Matrix.Defs

/-!
# Model of the network matrices

`makeYbus.py`, `makeB.py`, `makeBdc.py`, `makePTDF.py`, `makeLODF.py`, `makeSbus.py`.

Tables with consecutive internal numbering are functions from a finite index type: `B` buses, `L` branches, `G` generators (a table
with `n` rows is a function from `Fin n`).  Bus references are elements of `B`, i.e. they exist (ext2int, see `Verif/Index`).
Real data are real numbers; rounding is not modelled, and neither is the `nan`/`inf` of a zero impedance (division by 0 gives 0 here, so
statements are to be read for branches with nonzero impedance and reactance).
-/

namespace Verif.Network
open Matrix Complex ComplexConjugate

/-- Columns of `bus` used here (idx_bus.py). -/
structure Bus where
  PD : ℝ
  QD : ℝ
  GS : ℝ
  BS : ℝ

/-- Columns of `branch` used here (idx_brch.py); `f`, `t` are columns F_BUS, T_BUS; `stat` is BR_STATUS. -/
structure Branch (B : Type) where
  f : B
  t : B
  r : ℝ
  x : ℝ
  b : ℝ
  tap : ℝ
  shift : ℝ
  stat : ℝ

/-- Columns of `gen` used here (idx_gen.py); `bus` is GEN_BUS, `stat` GEN_STATUS. -/
structure Gen (B : Type) where
  bus : B
  PG : ℝ
  QG : ℝ
  stat : ℝ

variable {B L G : Type} [Fintype B] [Fintype L] [Fintype G] [DecidableEq B] [DecidableEq L] [DecidableEq G]

/-- `scipy.sparse.csr_matrix((v, (r, c)))`: entries with equal coordinates are added up (makeYbus.py:69,71,77,78,84, makeBdc.py:63,67,
makeSbus.py:33).  The concatenation `r_[..]` of two coordinate lists is the sum of the two matrices. -/
def coo {ι m n K : Type} [Fintype ι] [DecidableEq m] [DecidableEq n] [AddCommMonoid K] (r : ι → m) (c : ι → n) (v : ι → K) :
    Matrix m n K := fun i j => ∑ k, if r k = i ∧ c k = j then v k else 0

/-- makeYbus.py:45: series admittance. -/
noncomputable def Ys (br : Branch B) : ℂ := (br.stat : ℂ) / ((br.r : ℂ) + I * (br.x : ℂ))

/-- makeYbus.py:46: line charging susceptance. -/
noncomputable def Bc (br : Branch B) : ℝ := br.stat * br.b

/-- makeYbus.py:47-49, makeBdc.py:53-55: tap ratio, 0 meaning 1. -/
noncomputable def tapRatio (br : Branch B) : ℝ := if br.tap = 0 then 1 else br.tap

/-- makeYbus.py:50: complex tap with phase shift in degrees. -/
noncomputable def ctap (br : Branch B) : ℂ := (tapRatio br : ℂ) * exp (I * Real.pi / 180 * br.shift)

/-- makeYbus.py:52. -/
noncomputable def Ytt (br : Branch B) : ℂ := Ys br + I * Bc br / 2
/-- makeYbus.py:53. -/
noncomputable def Yff (br : Branch B) : ℂ := Ytt br / (ctap br * conj (ctap br))
/-- makeYbus.py:54. -/
noncomputable def Yft (br : Branch B) : ℂ := - Ys br / conj (ctap br)
/-- makeYbus.py:55. -/
noncomputable def Ytf (br : Branch B) : ℂ := - Ys br / ctap br

/-- makeYbus.py:63. -/
noncomputable def Ysh (baseMVA : ℝ) (bus : B → Bus) (i : B) : ℂ := ((bus i).GS + I * (bus i).BS) / baseMVA

/-- makeYbus.py:69. -/
noncomputable def Cf (branch : L → Branch B) : Matrix L B ℂ := coo id (fun l => (branch l).f) (fun _ => 1)
/-- makeYbus.py:71. -/
noncomputable def Ct (branch : L → Branch B) : Matrix L B ℂ := coo id (fun l => (branch l).t) (fun _ => 1)

/-- makeYbus.py:77. -/
noncomputable def Yf (branch : L → Branch B) : Matrix L B ℂ :=
  coo id (fun l => (branch l).f) (fun l => Yff (branch l)) + coo id (fun l => (branch l).t) (fun l => Yft (branch l))
/-- makeYbus.py:78. -/
noncomputable def Yt (branch : L → Branch B) : Matrix L B ℂ :=
  coo id (fun l => (branch l).f) (fun l => Ytf (branch l)) + coo id (fun l => (branch l).t) (fun l => Ytt (branch l))

/-- makeYbus.py:83-84. -/
noncomputable def Ybus (baseMVA : ℝ) (bus : B → Bus) (branch : L → Branch B) : Matrix B B ℂ :=
  (Cf branch)ᵀ * Yf branch + (Ct branch)ᵀ * Yt branch + coo id id (Ysh baseMVA bus)

/-- makeB.py:31-39: B prime (`alg` 2 is XB). -/
noncomputable def Bp (baseMVA : ℝ) (bus : B → Bus) (branch : L → Branch B) (alg : Nat) : Matrix B B ℝ :=
  fun i j => -1 * (Ybus baseMVA (fun i => { bus i with BS := 0 })
    (fun l => { branch l with b := 0, tap := 1, r := if alg = 2 then 0 else (branch l).r }) i j).im

/-- makeB.py:41-46: B double prime (`alg` 3 is BX). -/
noncomputable def Bpp (baseMVA : ℝ) (bus : B → Bus) (branch : L → Branch B) (alg : Nat) : Matrix B B ℝ :=
  fun i j => -1 * (Ybus baseMVA bus
    (fun l => { branch l with shift := 0, r := if alg = 3 then 0 else (branch l).r }) i j).im

/-- makeBdc.py:52,56: branch susceptance. -/
noncomputable def bdc (br : Branch B) : ℝ := br.stat / br.x / tapRatio br

/-- makeBdc.py:63. -/
noncomputable def Cft (branch : L → Branch B) : Matrix L B ℝ :=
  coo id (fun l => (branch l).f) (fun _ => 1) + coo id (fun l => (branch l).t) (fun _ => -1)

/-- makeBdc.py:67. -/
noncomputable def Bf (branch : L → Branch B) : Matrix L B ℝ :=
  coo id (fun l => (branch l).f) (fun l => bdc (branch l)) + coo id (fun l => (branch l).t) (fun l => - bdc (branch l))

/-- makeBdc.py:70. -/
noncomputable def Bbus (branch : L → Branch B) : Matrix B B ℝ := (Cft branch)ᵀ * Bf branch

/-- makeBdc.py:73. -/
noncomputable def Pfinj (branch : L → Branch B) : L → ℝ := fun l => bdc (branch l) * (-(branch l).shift * Real.pi / 180)

/-- makeBdc.py:75. -/
noncomputable def Pbusinj (branch : L → Branch B) : B → ℝ := (Cft branch)ᵀ *ᵥ Pfinj branch

/-- makePTDF.py:56-60 for a given slack bus; `bus0` is bus 0, the angle reference.  `solve` is `numpy.linalg.solve`. -/
noncomputable def ptdfSingle (solve : (s : B) → Matrix {i : B // i ≠ bus0} {i : B // i ≠ s} ℝ → Matrix {i : B // i ≠ bus0} L ℝ →
      Matrix {i : B // i ≠ s} L ℝ) (branch : L → Branch B) (slack : B) : Matrix L B ℝ :=
  let X := solve slack (fun j i => Bbus branch i.1 j.1) (fun j l => Bf branch l j.1)
  fun l i => if h : i ≠ slack then X ⟨i, h⟩ l else 0

/-- The argument `slack` of `makePTDF` (makePTDF.py:36-50,63-75). -/
inductive Slack (B : Type) where
  | bus (s : B)
  | weights (w : B → ℝ)
  | mat (M : Matrix B B ℝ)

/-- `makePTDF(baseMVA, bus, branch, slack)` (makePTDF.py:36-77); the default slack (first reference bus) is `Slack.bus`. -/
noncomputable def makePTDF (solve : (s : B) → Matrix {i : B // i ≠ bus0} {i : B // i ≠ s} ℝ → Matrix {i : B // i ≠ bus0} L ℝ →
      Matrix {i : B // i ≠ s} L ℝ) (branch : L → Branch B) : Slack B → Matrix L B ℝ
  | .bus s => ptdfSingle solve branch s
  | .weights w =>
    let H := ptdfSingle solve branch bus0
    let v := H *ᵥ (fun i => w i / ∑ j, w j)
    fun l k => H l k - v l
  | .mat M => ptdfSingle solve branch bus0 * M

/-- makeLODF.py:28-39. -/
noncomputable def makeLODF (branch : L → Branch B) (PTDF : Matrix L B ℝ) : Matrix L L ℝ :=
  let H := PTDF * (Cft branch)ᵀ
  let D : Matrix L L ℝ := fun l k => H l k / (1 - H k k)
  D - Matrix.diagonal (fun l => D l l) - 1

/-- makeSbus.py:25-39. -/
noncomputable def makeSbus (baseMVA : ℝ) (bus : B → Bus) (gen : G → Gen B) : B → ℂ :=
  let Cg : Matrix B {g : G // (gen g).stat > 0} ℂ := coo (fun g => (gen g.1).bus) id (fun _ => 1)
  fun i => ((Cg *ᵥ fun g => ((gen g.1).PG + I * (gen g.1).QG : ℂ)) i - ((bus i).PD + I * (bus i).QD)) / baseMVA

end Verif.Network
