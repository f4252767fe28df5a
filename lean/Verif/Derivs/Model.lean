import Mathlib.Data.Matrix.Mul
import Mathlib.Data.Matrix.Diagonal
import Mathlib.LinearAlgebra.Matrix.ConjTranspose
import Mathlib.Analysis.Complex.Basic

/-!
# Models of the derivative routines

`pypower/dSbus_dV.py`, `dSbr_dV.py`, `dIbr_dV.py`, `dAbr_dV.py`, `d2Sbus_dV2.py`, `d2Sbr_dV2.py`, `d2Ibr_dV2.py`, `d2ASbr_dV2.py`,
`d2AIbr_dV2.py`.  `B` is the set of buses, `L` the set of branches.  The matrix expressions are those of the code; the dense and the sparse
variants of the code compute the same expressions (with scipy a `sparse` built from empty index arrays without a shape raises, so an empty
branch list or bus list is outside these models).  `M.map conj` is `conj(M)`; `Mᴴ` is `M.getH()`.
-/

open Matrix ComplexConjugate

namespace Verif.Derivs

noncomputable section

variable {B L : Type*} [Fintype B] [Fintype L] [DecidableEq B] [DecidableEq L]

/-- `V / abs(V)` (dSbus_dV.py:60, dSbr_dV.py:72, dIbr_dV.py:40). -/
def Vnorm (V : B → ℂ) (b : B) : ℂ := V b / (‖V b‖ : ℂ)

/-- `dSbus_dV(Ybus, V)` (dSbus_dV.py:53-71, line 68): with respect to magnitude. -/
def dSbus_dVm (Y : Matrix B B ℂ) (V : B → ℂ) : Matrix B B ℂ :=
  diagonal V * (Y * diagonal (Vnorm V)).map conj + (diagonal (Y *ᵥ V)).map conj * diagonal (Vnorm V)

/-- `dSbus_dV(Ybus, V)` (dSbus_dV.py:53-71, line 69): with respect to angle. -/
def dSbus_dVa (Y : Matrix B B ℂ) (V : B → ℂ) : Matrix B B ℂ :=
  (Complex.I • diagonal V) * (diagonal (Y *ᵥ V) - Y * diagonal V).map conj

/-- `sparse((v[f], (il, f)), (nl, nb))` (dSbr_dV.py:88-99, 111-120). -/
def pick (f : L → B) (v : B → ℂ) : Matrix L B ℂ := Matrix.of fun l b => if f l = b then v (f l) else 0

/-- One end of `dSbr_dV` (dSbr_dV.py:62-131): flow `Sf = V[f] * conj(Yf V)`. -/
def Sbr (f : L → B) (Yf : Matrix L B ℂ) (V : B → ℂ) (l : L) : ℂ := V (f l) * conj ((Yf *ᵥ V) l)

/-- One end of `dSbr_dV`: derivative with respect to angle (dSbr_dV.py:82-125). -/
def dSbr_dVa (f : L → B) (Yf : Matrix L B ℂ) (V : B → ℂ) : Matrix L B ℂ :=
  Complex.I • ((diagonal (Yf *ᵥ V)).map conj * pick f V - diagonal (fun l => V (f l)) * (Yf * diagonal V).map conj)

/-- One end of `dSbr_dV`: derivative with respect to magnitude (dSbr_dV.py:82-125). -/
def dSbr_dVm (f : L → B) (Yf : Matrix L B ℂ) (V : B → ℂ) : Matrix L B ℂ :=
  diagonal (fun l => V (f l)) * (Yf * diagonal (Vnorm V)).map conj + (diagonal (Yf *ᵥ V)).map conj * pick f (Vnorm V)

/-- One end of `dIbr_dV` (dIbr_dV.py:38-62). -/
def Ibr (Yf : Matrix L B ℂ) (V : B → ℂ) : L → ℂ := Yf *ᵥ V
def dIbr_dVa (Yf : Matrix L B ℂ) (V : B → ℂ) : Matrix L B ℂ := (Complex.I • Yf) * diagonal V
def dIbr_dVm (Yf : Matrix L B ℂ) (V : B → ℂ) : Matrix L B ℂ := Yf * diagonal (Vnorm V)

/-- One end of `dAbr_dV` (dAbr_dV.py:58-74), for the flow `S` and its sensitivity `dS`. -/
def dAbr (dS : Matrix L B ℂ) (S : L → ℂ) : Matrix L B ℝ :=
  diagonal (fun l => 2 * (S l).re) * dS.map Complex.re + diagonal (fun l => 2 * (S l).im) * dS.map Complex.im

/-! ## Second derivatives -/

/-- `G = diag(1 / abs(V))` (d2Sbus_dV2.py:43, d2Sbr_dV2.py:44, d2Ibr_dV2.py:33). -/
def Ginv (V : B → ℂ) : Matrix B B ℂ := diagonal fun b => ((1 / ‖V b‖ : ℝ) : ℂ)

/-- Intermediate matrices of `d2Sbus_dV2` (d2Sbus_dV2.py:31-43). -/
def busA (V lam : B → ℂ) : Matrix B B ℂ := diagonal fun b => lam b * V b
def busC (Y : Matrix B B ℂ) (V lam : B → ℂ) : Matrix B B ℂ := busA V lam * (Y * diagonal V).map conj
def busD (Y : Matrix B B ℂ) (V : B → ℂ) : Matrix B B ℂ := Yᴴ * diagonal V
def busE (Y : Matrix B B ℂ) (V lam : B → ℂ) : Matrix B B ℂ :=
  (diagonal V).map conj * (busD Y V * diagonal lam - diagonal (busD Y V *ᵥ lam))
def busF (Y : Matrix B B ℂ) (V lam : B → ℂ) : Matrix B B ℂ :=
  busC Y V lam - busA V lam * diagonal fun b => conj ((Y *ᵥ V) b)

/-- The four matrices returned by `d2Sbus_dV2` (d2Sbus_dV2.py:45-48). -/
def busGaa (Y : Matrix B B ℂ) (V lam : B → ℂ) : Matrix B B ℂ := busE Y V lam + busF Y V lam
def busGva (Y : Matrix B B ℂ) (V lam : B → ℂ) : Matrix B B ℂ := (Complex.I • Ginv V) * (busE Y V lam - busF Y V lam)
def busGav (Y : Matrix B B ℂ) (V lam : B → ℂ) : Matrix B B ℂ := (busGva Y V lam)ᵀ
def busGvv (Y : Matrix B B ℂ) (V lam : B → ℂ) : Matrix B B ℂ := Ginv V * (busC Y V lam + (busC Y V lam)ᵀ) * Ginv V

/-- Intermediate matrices of `d2Sbr_dV2` (d2Sbr_dV2.py:31-44). -/
def brA (C Y : Matrix L B ℂ) (lam : L → ℂ) : Matrix B B ℂ := Yᴴ * diagonal lam * C
def brB (A : Matrix B B ℂ) (V : B → ℂ) : Matrix B B ℂ := (diagonal V).map conj * A * diagonal V
def brD (A : Matrix B B ℂ) (V : B → ℂ) : Matrix B B ℂ := diagonal fun b => (A *ᵥ V) b * conj (V b)
def brE (A : Matrix B B ℂ) (V : B → ℂ) : Matrix B B ℂ := diagonal fun b => (Aᵀ *ᵥ fun b => conj (V b)) b * V b
def brF (A : Matrix B B ℂ) (V : B → ℂ) : Matrix B B ℂ := brB A V + (brB A V)ᵀ

/-- The four matrices returned by `d2Sbr_dV2` (d2Sbr_dV2.py:46-51), for the connection matrix `Cbr`. -/
def brHaa (C Y : Matrix L B ℂ) (V : B → ℂ) (lam : L → ℂ) : Matrix B B ℂ :=
  brF (brA C Y lam) V - brD (brA C Y lam) V - brE (brA C Y lam) V
def brHva (C Y : Matrix L B ℂ) (V : B → ℂ) (lam : L → ℂ) : Matrix B B ℂ :=
  (Complex.I • Ginv V) * (brB (brA C Y lam) V - (brB (brA C Y lam) V)ᵀ - brD (brA C Y lam) V + brE (brA C Y lam) V)
def brHav (C Y : Matrix L B ℂ) (V : B → ℂ) (lam : L → ℂ) : Matrix B B ℂ := (brHva C Y V lam)ᵀ
def brHvv (C Y : Matrix L B ℂ) (V : B → ℂ) (lam : L → ℂ) : Matrix B B ℂ := Ginv V * brF (brA C Y lam) V * Ginv V

/-- The connection matrix of one branch end: a one in column `f l` of row `l` (opf_hessfcn.py:174-177). -/
def conn (f : L → B) : Matrix L B ℂ := Matrix.of fun l b => if f l = b then 1 else 0

/-- The four matrices returned by `d2Ibr_dV2` (d2Ibr_dV2.py:31-40). -/
def ibHaa (Y : Matrix L B ℂ) (V : B → ℂ) (lam : L → ℂ) : Matrix B B ℂ := diagonal fun b => -(Yᵀ *ᵥ lam) b * V b
def ibHva (Y : Matrix L B ℂ) (V : B → ℂ) (lam : L → ℂ) : Matrix B B ℂ := (-Complex.I • ibHaa Y V lam) * Ginv V
def ibHav (Y : Matrix L B ℂ) (V : B → ℂ) (lam : L → ℂ) : Matrix B B ℂ := ibHva Y V lam
def ibHvv (_Y : Matrix L B ℂ) (_V : B → ℂ) (_lam : L → ℂ) : Matrix B B ℂ := 0

/-- The common last step of `d2ASbr_dV2` (d2ASbr_dV2.py:43-46) and `d2AIbr_dV2` (d2AIbr_dV2.py:43-46): `2 * (H + dX' diag(lam) conj(dY)).real`. -/
def sqH (H : Matrix B B ℂ) (dX dY : Matrix L B ℂ) (lam : L → ℝ) : Matrix B B ℝ :=
  (2 : ℝ) • (H + dXᵀ * diagonal (fun l => (lam l : ℂ)) * dY.map conj).map Complex.re

/-- `diagSbr_conj * lam` (d2ASbr_dV2.py:39-41, d2AIbr_dV2.py:39-41). -/
def conjTimes (S : L → ℂ) (lam : L → ℝ) : L → ℂ := diagonal (fun l => conj (S l)) *ᵥ fun l => (lam l : ℂ)

end

end Verif.Derivs
