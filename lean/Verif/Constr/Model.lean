import Mathlib.Data.EReal.Basic
import Mathlib.Analysis.SpecialFunctions.Complex.Arg
import Mathlib.Analysis.SpecialFunctions.Sqrt
import Verif.NumPy

/-!
# Linear constraints of the OPF

Model of `makeAang.py:16-60` (branch angle difference limits), `makeAvl.py:19-84` (constant power factor of dispatchable
loads), `hasPQcap.py:15-63` and `makeApq.py:17-96` (generator capability curves).

A sparse matrix built from `(data, (ii, jj))` is the list of its entries; duplicate positions add up. Numbers are real
(no rounding); infinite bounds are in the extended reals. Text written to `stderr` is modelled by flags where a property
mentions it.
-/

open Verif.NumPy

namespace Verif.Constr

noncomputable section

/-- Entries of a sparse matrix: row, column, value. -/
abbrev Coo := List (Nat × Nat × ℝ)

/-- Row `i` of the matrix times the vector `x`. -/
def Coo.row (es : Coo) (x : Nat → ℝ) (i : Nat) : ℝ :=
  ((es.filter fun e => decide (e.1 = i)).map fun e => e.2.2 * x e.2.1).sum

/-- `sparse((r_[v1, v2], (r_[arange(n), arange(n)], r_[c1, c2])))` (makeAang.py:47-50, makeAvl.py:74-76, makeApq.py:65-67). -/
def twoBlocks (n : Nat) (c1 c2 : List Nat) (v1 v2 : List ℝ) : Coo :=
  (List.range n ++ List.range n).zip ((c1 ++ c2).zip (v1 ++ v2))

/-- Linear constraints `lower ≤ A x ≤ upper` with `n` rows; `index` are the rows of the data table they come from. -/
structure Lin where
  n : Nat
  A : Coo
  lower : List EReal
  upper : List EReal
  index : List Nat

/-- The constraints hold at `x`. A missing bound never happens in the routines below. -/
def Lin.Holds (c : Lin) (x : Nat → ℝ) : Prop :=
  ∀ i < c.n, (∃ l, c.lower[i]? = some l ∧ l ≤ (c.A.row x i : EReal)) ∧ ∃ u, c.upper[i]? = some u ∧ (c.A.row x i : EReal) ≤ u

/-! ## Angle differences -/

/-- The columns of a branch row used: F_BUS, T_BUS (internal numbers), ANGMIN, ANGMAX (degrees). -/
structure Branch where
  f : Nat
  t : Nat
  angmin : ℝ
  angmax : ℝ

/-- The mask of makeAang.py:40-41. -/
def hasAngleLimit (b : Branch) : Bool :=
  @decide ((b.angmin ≠ 0 ∧ -360 < b.angmin) ∨ (b.angmax ≠ 0 ∧ b.angmax < 360)) (Classical.dec _)

/-- `makeAang` (makeAang.py:32-60); `none` is the exception for a bus number outside the matrix (or for a failing
indexing operation, which cannot happen). -/
def makeAang (ignore : Bool) (nb : Nat) (branch : List Branch) : Option Lin :=
  if ignore then some ⟨0, [], [], [], []⟩
  else do
    let iang := find (branch.map hasAngleLimit)
    let sub ← gather branch iang
    let iangl := find (sub.map fun b => @decide (b.angmin ≠ 0) (Classical.dec _))
    let iangh := find (sub.map fun b => @decide (b.angmax ≠ 0) (Classical.dec _))
    let nang := iang.length
    if nang = 0 then some ⟨0, [], [], [], iang⟩
    else if sub.any (fun b => decide (nb ≤ b.f) || decide (nb ≤ b.t)) then none
    else do
      let lo ← gather sub iangl
      let hi ← gather sub iangh
      let lang ← scatter (List.replicate nang (⊥ : EReal)) iangl (lo.map fun b => ((b.angmin * Real.pi / 180 : ℝ) : EReal))
      let uang ← scatter (List.replicate nang (⊤ : EReal)) iangh (hi.map fun b => ((b.angmax * Real.pi / 180 : ℝ) : EReal))
      some ⟨nang, twoBlocks nang (sub.map Branch.f) (sub.map Branch.t) (List.replicate nang 1) (List.replicate nang (-1)),
        lang, uang, iang⟩

/-! ## Constant power factor -/

/-- The columns of a generator row used (MW, MVAr). -/
structure Gen where
  pg : ℝ
  qg : ℝ
  pmin : ℝ
  pmax : ℝ
  qmin : ℝ
  qmax : ℝ
  pc1 : ℝ
  pc2 : ℝ
  qc1min : ℝ
  qc1max : ℝ
  qc2min : ℝ
  qc2max : ℝ

/-- `isload` (isload.py:21). -/
def isload (g : Gen) : Bool := @decide (g.pmin < 0 ∧ g.pmax = 0) (Classical.dec _)

/-- `arctan2(y, x)`. -/
def arctan2 (y x : ℝ) : ℝ := Complex.arg ⟨x, y⟩

/-- The mask of makeAvl.py:49 (the limits are divided by `baseMVA` first). -/
def isVarLoad (baseMVA : ℝ) (g : Gen) : Bool :=
  isload g && @decide (g.qmin / baseMVA ≠ 0 ∨ g.qmax / baseMVA ≠ 0) (Classical.dec _)

/-- `Qlim = (Qmin == 0) * Qmax + (Qmax == 0) * Qmin` (makeAvl.py:61). -/
def qlim (baseMVA : ℝ) (g : Gen) : ℝ :=
  (@ite ℝ (g.qmin / baseMVA = 0) (Classical.dec _) 1 0) * (g.qmax / baseMVA)
    + (@ite ℝ (g.qmax / baseMVA = 0) (Classical.dec _) 1 0) * (g.qmin / baseMVA)

/-- The message of makeAvl.py:53-55 (both limits non-zero for some load) is written. -/
def avlAmbiguous (baseMVA : ℝ) (gen : List Gen) : Bool :=
  (gen.filter (isVarLoad baseMVA)).any fun g =>
    @decide (g.qmin / baseMVA ≠ 0 ∧ g.qmax / baseMVA ≠ 0) (Classical.dec _)

/-- `makeAvl` (makeAvl.py:32-84). The messages of lines 53-55 and 62-65 do not stop the construction. -/
def makeAvl (baseMVA : ℝ) (gen : List Gen) : Option Lin := do
  let ng := gen.length
  let ivl := find (gen.map (isVarLoad baseMVA))
  let sub ← gather gen ivl
  let nvl := ivl.length
  let theta := sub.map fun g => arctan2 (qlim baseMVA g) (g.pmin / baseMVA)
  some ⟨nvl, twoBlocks nvl ivl (ivl.map (· + ng)) (theta.map Real.sin) (theta.map fun t => -Real.cos t),
    List.replicate nvl 0, List.replicate nvl 0, ivl⟩

/-! ## Capability curves -/

/-- `hasPQcap(gen, 'U')` for one row (hasPQcap.py:49-51,58-61): the upper line at PMAX is below QMAX. -/
def hasPQcapU (g : Gen) : Bool :=
  @decide (g.pc1 ≠ g.pc2 ∧
    g.qc1max + (g.pmax - g.pc1) * (g.qc2max - g.qc1max) / (g.pc2 - g.pc1) < g.qmax) (Classical.dec _)

/-- `hasPQcap(gen, 'L')` for one row (hasPQcap.py:49-51,53-56): the lower line at PMAX is above QMIN. -/
def hasPQcapL (g : Gen) : Bool :=
  @decide (g.pc1 ≠ g.pc2 ∧
    g.qmin < g.qc1min + (g.pmax - g.pc1) * (g.qc2min - g.qc1min) / (g.pc2 - g.pc1)) (Classical.dec _)

/-- One half plane `a P + b Q ≤ ub` before and after normalisation (makeApq.py:57-64): coefficients divided by their
Euclidean norm. -/
structure Half where
  a : ℝ
  b : ℝ
  ub : ℝ

/-- makeApq.py:62-64 and 81-83. -/
def Half.normalise (h : Half) : Half :=
  let tmp := Real.sqrt (h.a ^ 2 + h.b ^ 2)
  ⟨h.a / tmp, h.b / tmp, h.ub / tmp⟩

/-- makeApq.py:57-60. -/
def upperHalf (g : Gen) : Half :=
  ⟨g.qc1max - g.qc2max, g.pc2 - g.pc1, (g.qc1max - g.qc2max) * g.pc1 + (g.pc2 - g.pc1) * g.qc1max⟩

/-- makeApq.py:76-79. -/
def lowerHalf (g : Gen) : Half :=
  ⟨g.qc2min - g.qc1min, g.pc1 - g.pc2, (g.qc2min - g.qc1min) * g.pc1 + (g.pc1 - g.pc2) * g.qc1min⟩

/-- The common shape of makeApq.py:56-72 and 75-91: rows for the flagged generators. -/
def halfRows (baseMVA : ℝ) (mask : Gen → Bool) (half : Gen → Half) (gen : List Gen) : Option Lin := do
  let ng := gen.length
  let ipq := find (gen.map mask)
  let sub ← gather gen ipq
  let hs := sub.map fun g => (half g).normalise
  some ⟨ipq.length, twoBlocks ipq.length ipq (ipq.map (· + ng)) (hs.map Half.a) (hs.map Half.b),
    List.replicate ipq.length ⊥, hs.map fun h => ((h.ub / baseMVA : ℝ) : EReal), ipq⟩

/-- `makeApq` (makeApq.py:17-96): upper and lower rows. The entries `data["h"]`, `data["l"]` are the coefficient columns. -/
def makeApq (baseMVA : ℝ) (gen : List Gen) : Option (Lin × Lin) := do
  let h ← halfRows baseMVA hasPQcapU upperHalf gen
  let l ← halfRows baseMVA hasPQcapL lowerHalf gen
  some (h, l)

end

end Verif.Constr
