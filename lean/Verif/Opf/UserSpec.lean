import Verif.Opf.EconSpec
import Verif.Opf.UserModel
import Verif.Opf.CompProps

/-!
# Specification vocabulary for user-defined constraints, variables and costs

A user matrix `A` or `N` has one column per bus (angle, radians), one per generator (output, p.u.), then one per user variable `z`; or, with the columns of the AC problem, per bus
(angle), per bus (voltage magnitude), per generator (output), per generator (reactive output), per user variable — the DC problem has no magnitudes and reactive outputs.

`bs` and `gs` say which rows of the bus and generator table the columns refer to, in the order of the columns.  The documented order is that of the caller's tables
(`List.range`); what the code uses is `RowOrder`.
-/

namespace Verif.Opf

open Verif.Index (BusRow GenRow GenInService)

noncomputable section

/-- The quantity that column `j` of a matrix with the columns of the DC problem refers to. -/
def dcValue (base : ℝ) (t : Index.Case Tables) (bs gs : List ℕ) (z : List ℝ) (j : ℕ) : ℝ :=
  if j < bs.length then vaAt t (bs.getD j 0) else if j < bs.length + gs.length then pgAt t (gs.getD (j - bs.length) 0) / base else z.getD (j - bs.length - gs.length) 0

/-- The quantity that column `j` of a matrix with `w` columns refers to. -/
def colValue (base : ℝ) (t : Index.Case Tables) (bs gs : List ℕ) (z : List ℝ) (w j : ℕ) : ℝ :=
  let nb := bs.length
  let ng := gs.length
  if w < 2 * nb + 2 * ng then dcValue base t bs gs z j
  else if j < nb then dcValue base t bs gs z j
  else if j < 2 * nb then 0
  else if j < 2 * nb + ng then dcValue base t bs gs z (j - nb)
  else if j < 2 * nb + 2 * ng then 0
  else dcValue base t bs gs z (j - nb - ng)

/-- Value of row `i` of the matrix with these columns. -/
def rowValue (base : ℝ) (t : Index.Case Tables) (bs gs : List ℕ) (z : List ℝ) (cols : List (List ℝ)) (i : ℕ) : ℝ :=
  ∑ j ∈ Finset.range cols.length, (cols.getD j []).getD i 0 * colValue base t bs gs z cols.length j

/-- Number of user variables: the columns of `A` beyond those for the standard quantities. -/
def nUser (nb ng : ℕ) (cols : List (List ℝ)) : ℕ :=
  if rowsOf cols = 0 then 0 else cols.length - if cols.length < 2 * nb + 2 * ng then nb + ng else 2 * nb + 2 * ng

/-- Bound `i`; a vector of bounds that is not given is unbounded. -/
def lowAt (l : List EReal) (i : ℕ) : EReal := if l = [] then ⊥ else l.getD i ⊥
def uppAt (u : List EReal) (i : ℕ) : EReal := if u = [] then ⊤ else u.getD i ⊤

/-- The user constraints and the bounds of the user variables hold at the tables `t` and `z`. -/
structure UserFeasible (base : ℝ) (c : Index.Case Tables) (U : UserIn) (bs gs : List ℕ) (t : Index.Case Tables) (z : List ℝ) : Prop where
  size : z.length = nUser bs.length gs.length (colsOf c.A)
  rows : ∀ i < rowsOf (colsOf c.A), lowAt U.l i ≤ (rowValue base t bs gs z (colsOf c.A) i : EReal) ∧ (rowValue base t bs gs z (colsOf c.A) i : EReal) ≤ uppAt U.u i
  vars : ∀ k < z.length, lowAt U.zl k ≤ (z.getD k 0 : EReal) ∧ (z.getD k 0 : EReal) ≤ uppAt U.zu k

/-- The documented user cost without its `fparm` part: `½ w' H w + Cw' w` with `w = N x`. -/
def userCost (base : ℝ) (c : Index.Case Tables) (U : UserIn) (bs gs : List ℕ) (t : Index.Case Tables) (z : List ℝ) : ℝ :=
  let n := rowsOf (colsOf c.N)
  let w := rowValue base t bs gs z (colsOf c.N)
  let H := fun a b => ((U.H).map fun h => h.val a b).getD 0
  1 / 2 * ∑ a ∈ Finset.range n, ∑ b ∈ Finset.range n, w a * H a b * w b + ∑ a ∈ Finset.range n, U.Cw.getD a 0 * w a

/-- What `results` say about the user data, with the columns in the order `bs`, `gs`: constraints and bounds hold up to the tolerance of the solver (bounds beyond `±1e10` count as
absent), and the reported user cost is the documented one. -/
structure UserApplied (base : ℝ) (c : Index.Case Tables) (U : UserIn) (bs gs : List ℕ) (ret : Ret) (out : UserOut) : Prop where
  size : out.z.length = nUser bs.length gs.length (colsOf c.A)
  rows : ∀ i < rowsOf (colsOf c.A), Pips.Within (lowAt U.l i) (uppAt U.u i) (rowValue base ret.tables bs gs out.z (colsOf c.A) i) ret.tol
  vars : ∀ k < out.z.length, Pips.Within (lowAt U.zl k) (uppAt U.zu k) (out.z.getD k 0) ret.tol
  cost : out.cost = userCost base c U bs gs ret.tables out.z

/-- What the multipliers of the user data say: never negative; zero for absent bounds; times the unused margin at most `ε`. -/
structure UserPrices (base : ℝ) (c : Index.Case Tables) (U : UserIn) (bs gs : List ℕ) (ret : Ret) (out : UserOut) (ε : ℝ) : Prop where
  size : out.mu_l.length = rowsOf (colsOf c.A) ∧ out.mu_u.length = rowsOf (colsOf c.A) ∧ out.z_mu_l.length = out.z.length ∧ out.z_mu_u.length = out.z.length
  nonneg : (∀ v ∈ out.mu_l, 0 ≤ v) ∧ (∀ v ∈ out.mu_u, 0 ≤ v) ∧ (∀ v ∈ out.z_mu_l, 0 ≤ v) ∧ ∀ v ∈ out.z_mu_u, 0 ≤ v
  absent : ∀ i < rowsOf (colsOf c.A), (lowAt U.l i = ⊥ → out.mu_l.getD i 0 = 0) ∧ (uppAt U.u i = ⊤ → out.mu_u.getD i 0 = 0)
  upper : ∀ i < rowsOf (colsOf c.A), ∀ u : ℝ, uppAt U.u i = (u : EReal) → out.mu_u.getD i 0 * (u - rowValue base ret.tables bs gs out.z (colsOf c.A) i) ≤ ε
  lower : ∀ i < rowsOf (colsOf c.A), ∀ l : ℝ, lowAt U.l i = (l : EReal) → out.mu_l.getD i 0 * (rowValue base ret.tables bs gs out.z (colsOf c.A) i - l) ≤ ε
  zupper : ∀ k < out.z.length, ∀ u : ℝ, uppAt U.zu k = (u : EReal) → out.z_mu_u.getD k 0 * (u - out.z.getD k 0) ≤ ε
  zlower : ∀ k < out.z.length, ∀ l : ℝ, lowAt U.zl k = (l : EReal) → out.z_mu_l.getD k 0 * (out.z.getD k 0 - l) ≤ ε

/-- A symmetric, positive semidefinite `H`. -/
structure UserConvex (c : Index.Case Tables) (U : UserIn) : Prop where
  symm : ∀ h, U.H = some h → ∀ a < rowsOf (colsOf c.N), ∀ b < rowsOf (colsOf c.N), h.val a b = h.val b a
  psd : ∀ h, U.H = some h → ∀ w : ℕ → ℝ, 0 ≤ ∑ a ∈ Finset.range (rowsOf (colsOf c.N)), ∑ b ∈ Finset.range (rowsOf (colsOf c.N)), w a * h.val a b * w b

/-- User data of the documented shapes, with sparse matrices and, if there are user costs, with `H`; `nb`, `ng` are the numbers of connected buses and generators in service. -/
structure UserShape (nb ng : ℕ) (c : Index.Case Tables) (U : UserIn) : Prop where
  sparseA : ∀ a, c.A = some a → a.sparse = true
  sparseN : ∀ a, c.N = some a → a.sparse = true
  N : rowsOf (colsOf c.N) ≠ 0 → if rowsOf (colsOf c.A) = 0 then (colsOf c.N).length = nb + ng ∨ (colsOf c.N).length = 2 * nb + 2 * ng
    else (colsOf c.N).length = (colsOf c.A).length
  Cw : rowsOf (colsOf c.N) ≠ 0 → U.Cw.length = rowsOf (colsOf c.N)
  H : rowsOf (colsOf c.N) ≠ 0 → ∃ h, U.H = some h ∧ h.rows = rowsOf (colsOf c.N) ∧ h.cols = rowsOf (colsOf c.N)
  fparm : rowsOf (colsOf c.N) ≠ 0 → U.fparm = [] ∨ U.fparm.length = rowsOf (colsOf c.N)

/-- User data with which a run completes: of the documented shapes, with vectors of bounds that are absent or complete, lower bounds at most upper bounds, and equal bounds not beyond
`±1e10`. -/
structure UserInputs (c : Index.Case Tables) (U : UserIn) : Prop where
  shape : UserShape (onBuses c).card (onGens c).card c U
  l : U.l = [] ∨ U.l.length = rowsOf (colsOf c.A)
  u : U.u = [] ∨ U.u.length = rowsOf (colsOf c.A)
  zl : U.zl = [] ∨ U.zl.length = nUser (onBuses c).card (onGens c).card (colsOf c.A)
  zu : U.zu = [] ∨ U.zu.length = nUser (onBuses c).card (onGens c).card (colsOf c.A)
  rows : ∀ i < rowsOf (colsOf c.A), Pips.Sane (lowAt U.l i) (uppAt U.u i)
  vars : ∀ k < nUser (onBuses c).card (onGens c).card (colsOf c.A), Pips.Sane (lowAt U.zl k) (uppAt U.zu k)

/-- The order the code applies the columns in: connected buses in the order of their rows; generators in service by the rows of their buses. -/
structure RowOrder (c : Index.Case Tables) (bs gs : List ℕ) : Prop where
  bus : ∀ i, i ∈ bs ↔ i ∈ onBuses c
  busOrder : bs.Pairwise (· < ·)
  gen : ∀ i, i ∈ gs ↔ i ∈ onGens c
  genNodup : gs.Nodup
  genOrder : gs.Pairwise fun i j => ∀ gi gj (p q : ℕ) bi bj, c.gen[i]? = some gi → c.gen[j]? = some gj → c.bus[p]? = some bi → c.bus[q]? = some bj →
    bi.num = gi.bus → bj.num = gj.bus → p ≤ q

/-- Everything is in service, and the generators are listed in the order of the rows of their buses; generators at the same bus only if the sort of the code (numpy's `argsort`)
leaves sorted lists alone. -/
structure InOrder (srt : List ℕ → List ℕ) (c : Index.Case Tables) : Prop where
  bus : ∀ b ∈ c.bus, b.typ ≠ 4
  gen : ∀ g ∈ c.gen, 0 < g.status
  order : ∀ (i j : ℕ) gi gj (p q : ℕ) bi bj, i < j → c.gen[i]? = some gi → c.gen[j]? = some gj → c.bus[p]? = some bi → c.bus[q]? = some bj →
    bi.num = gi.bus → bj.num = gj.bus → p < q ∨ p = q ∧ ∀ l : List ℕ, l.Pairwise (· ≤ ·) → srt l = List.range l.length

end

end Verif.Opf
