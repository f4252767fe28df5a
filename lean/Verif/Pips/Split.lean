import Verif.NumPy
import Mathlib.Data.EReal.Operations

/-!
# Model of the handling of linear constraints and bounds in `pips` (pypower/pips.py:238-257, 612-629)

The rows of `AA = [I; A]` are numbered `0 .. n-1` (`n = nx + nA`); `v k` is the value of row `k` at a point.  Bounds are extended reals.
-/

namespace Verif.Pips

open Verif.NumPy

noncomputable section

/-- `EPS` (pips.py:19), `1e10` (pips.py:246-248). -/
def epsE : EReal := ((1 / 2 ^ 52 : ℝ) : EReal)
def big : EReal := ((10 ^ 10 : ℝ) : EReal)

/-- `absolute(uu - ll) <= EPS` (pips.py:245).  `inf - inf` is NaN in numpy, making the comparison false; in `EReal` the difference is
`⊥`, which makes it false as well. -/
def near (l u : EReal) : Prop := -epsE ≤ u - l ∧ u - l ≤ epsE

open Classical in
/-- pips.py:245. -/
def ieq (n : ℕ) (ll uu : ℕ → EReal) : List ℕ := (List.range n).filter fun k => near (ll k) (uu k)

open Classical in
/-- pips.py:246. -/
def igt (n : ℕ) (ll uu : ℕ → EReal) : List ℕ := (List.range n).filter fun k => big ≤ uu k ∧ -big < ll k

open Classical in
/-- pips.py:247. -/
def ilt (n : ℕ) (ll uu : ℕ → EReal) : List ℕ := (List.range n).filter fun k => ll k ≤ -big ∧ uu k < big

open Classical in
/-- pips.py:248. -/
def ibx (n : ℕ) (ll uu : ℕ → EReal) : List ℕ :=
  (List.range n).filter fun k => ¬ near (ll k) (uu k) ∧ uu k < big ∧ -big < ll k

/-- The rows of `Ai` in stacking order, as (upper?, row of `AA`): `[(1, ilt), (-1, igt), (1, ibx), (-1, ibx)]` (pips.py:252-253). -/
def iRows (n : ℕ) (ll uu : ℕ → EReal) : List (Bool × ℕ) :=
  (ilt n ll uu).map (Prod.mk true) ++ (igt n ll uu).map (Prod.mk false) ++ (ibx n ll uu).map (Prod.mk true) ++
    (ibx n ll uu).map (Prod.mk false)

/-- Entries of `bi = [uu[ilt], -ll[igt], uu[ibx], -ll[ibx]]` (pips.py:257). -/
def bi (n : ℕ) (ll uu : ℕ → EReal) : List EReal :=
  (ilt n ll uu).map uu ++ (igt n ll uu).map (fun k => -ll k) ++ (ibx n ll uu).map uu ++ (ibx n ll uu).map (fun k => -ll k)

/-- `Ai * x - bi` (pips.py:266, 289). -/
def hLin (n : ℕ) (ll uu : ℕ → EReal) (v : ℕ → ℝ) : List EReal :=
  List.zipWith (fun r b => (if r.1 then (v r.2 : EReal) else ((-v r.2 : ℝ) : EReal)) - b) (iRows n ll uu) (bi n ll uu)

/-- `Ae * x - be`, `be = uu[ieq]` (pips.py:256, 267, 290). -/
def gLin (n : ℕ) (ll uu : ℕ → EReal) (v : ℕ → ℝ) : List EReal :=
  (ieq n ll uu).map fun k => (v k : EReal) - uu k

/-- `mu_l` (pips.py:615, 618-621): `lamLin`, `muLin` are the (un-scaled) multipliers of the rows of `Ae`, `Ai`. -/
def muL (n : ℕ) (ll uu : ℕ → EReal) (lamLin muLin : List ℝ) : Option (List ℝ) := do
  let kl := find (lamLin.map fun t => decide (t < 0))
  let idx ← gather (ieq n ll uu) kl
  let val ← gather lamLin kl
  let r1 ← scatter (List.replicate n 0) idx (val.map fun t => -t)
  let nlt := (ilt n ll uu).length
  let ngt := (igt n ll uu).length
  let nbx := (ibx n ll uu).length
  let r2 ← scatter r1 (igt n ll uu) ((muLin.drop nlt).take ngt)
  scatter r2 (ibx n ll uu) ((muLin.drop (nlt + ngt + nbx)).take nbx)

/-- `mu_u` (pips.py:616, 623-626). -/
def muU (n : ℕ) (ll uu : ℕ → EReal) (lamLin muLin : List ℝ) : Option (List ℝ) := do
  let ku := find (lamLin.map fun t => decide (t > 0))
  let idx ← gather (ieq n ll uu) ku
  let val ← gather lamLin ku
  let r1 ← scatter (List.replicate n 0) idx val
  let nlt := (ilt n ll uu).length
  let ngt := (igt n ll uu).length
  let nbx := (ibx n ll uu).length
  let r2 ← scatter r1 (ilt n ll uu) (muLin.take nlt)
  scatter r2 (ibx n ll uu) ((muLin.drop (nlt + ngt)).take nbx)

end

end Verif.Pips
