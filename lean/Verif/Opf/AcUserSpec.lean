import Verif.Opf.UserSpec
import Verif.Opf.AcUserModel

/-!
# Specification vocabulary for user-defined constraints and variables of the AC problem

The user matrix `A` has one column per bus (angle, radians), one per bus (voltage magnitude), one per generator (output, p.u.), one per generator (reactive output, p.u.), then one per
user variable `z`.  `bs` and `gs` say which rows of the bus and generator table the columns refer to.  The documented order is that of the caller's tables (`List.range`); what the code
uses is `RowOrder`.
-/

namespace Verif.Opf

noncomputable section

/-- Voltage magnitude in row `i` of the bus table, reactive output in row `i` of the generator table. -/
def vmAt (t : Index.Case Tables) (i : ℕ) : ℝ := ((t.bus[i]?).map fun b => b.data.VM).getD 0
def qgAt (t : Index.Case Tables) (i : ℕ) : ℝ := ((t.gen[i]?).map fun g => g.data.QG).getD 0

/-- The quantity that column `j` refers to. -/
def acColValue (base : ℝ) (t : Index.Case Tables) (bs gs : List ℕ) (z : List ℝ) (j : ℕ) : ℝ :=
  let nb := bs.length
  let ng := gs.length
  if j < nb then vaAt t (bs.getD j 0)
  else if j < 2 * nb then vmAt t (bs.getD (j - nb) 0)
  else if j < 2 * nb + ng then pgAt t (gs.getD (j - 2 * nb) 0) / base
  else if j < 2 * nb + 2 * ng then qgAt t (gs.getD (j - 2 * nb - ng) 0) / base
  else z.getD (j - 2 * nb - 2 * ng) 0

/-- Value of row `i` of the matrix with these columns. -/
def acRowValue (base : ℝ) (t : Index.Case Tables) (bs gs : List ℕ) (z : List ℝ) (cols : List (List ℝ)) (i : ℕ) : ℝ :=
  ∑ j ∈ Finset.range cols.length, (cols.getD j []).getD i 0 * acColValue base t bs gs z j

/-- Number of user variables: the columns of `A` beyond those for the standard quantities. -/
def nUserAc (nb ng : ℕ) (cols : List (List ℝ)) : ℕ := if rowsOf cols = 0 then 0 else cols.length - (2 * nb + 2 * ng)

/-- What `results` say about the user data, with the columns in the order `bs`, `gs`: constraints and bounds hold up to the tolerance of the solver (bounds beyond `±1e10` count as
absent). -/
structure AcUserApplied (base : ℝ) (c : Index.Case Tables) (U : UserIn) (bs gs : List ℕ) (ret : Ret) (out : AcUserOut) : Prop where
  size : out.z.length = nUserAc bs.length gs.length (colsOf c.A)
  rows : ∀ i < rowsOf (colsOf c.A), Pips.Within (lowAt U.l i) (uppAt U.u i) (acRowValue base ret.tables bs gs out.z (colsOf c.A) i) ret.tol
  vars : ∀ k < out.z.length, Pips.Within (lowAt U.zl k) (uppAt U.zu k) (out.z.getD k 0) ret.tol

/-- What the multipliers of the user data say: never negative; zero for absent bounds; times the unused margin at most `ε`. -/
structure AcUserPrices (base : ℝ) (c : Index.Case Tables) (U : UserIn) (bs gs : List ℕ) (ret : Ret) (out : AcUserOut) (ε : ℝ) : Prop where
  size : out.mu_l.length = rowsOf (colsOf c.A) ∧ out.mu_u.length = rowsOf (colsOf c.A) ∧ out.z_mu_l.length = out.z.length ∧ out.z_mu_u.length = out.z.length
  nonneg : (∀ v ∈ out.mu_l, 0 ≤ v) ∧ (∀ v ∈ out.mu_u, 0 ≤ v) ∧ (∀ v ∈ out.z_mu_l, 0 ≤ v) ∧ ∀ v ∈ out.z_mu_u, 0 ≤ v
  absent : ∀ i < rowsOf (colsOf c.A), (lowAt U.l i = ⊥ → out.mu_l.getD i 0 = 0) ∧ (uppAt U.u i = ⊤ → out.mu_u.getD i 0 = 0)
  zabsent : ∀ k < out.z.length, (lowAt U.zl k = ⊥ → out.z_mu_l.getD k 0 = 0) ∧ (uppAt U.zu k = ⊤ → out.z_mu_u.getD k 0 = 0)
  upper : ∀ i < rowsOf (colsOf c.A), ∀ u : ℝ, uppAt U.u i = (u : EReal) → out.mu_u.getD i 0 * (u - acRowValue base ret.tables bs gs out.z (colsOf c.A) i) ≤ ε
  lower : ∀ i < rowsOf (colsOf c.A), ∀ l : ℝ, lowAt U.l i = (l : EReal) → out.mu_l.getD i 0 * (acRowValue base ret.tables bs gs out.z (colsOf c.A) i - l) ≤ ε
  zupper : ∀ k < out.z.length, ∀ u : ℝ, uppAt U.zu k = (u : EReal) → out.z_mu_u.getD k 0 * (u - out.z.getD k 0) ≤ ε
  zlower : ∀ k < out.z.length, ∀ l : ℝ, lowAt U.zl k = (l : EReal) → out.z_mu_l.getD k 0 * (out.z.getD k 0 - l) ≤ ε

/-- A sparse `A` that, if it has rows, has the columns of the AC problem. -/
structure AcUserShape (c : Index.Case Tables) : Prop where
  sparse : ∀ a, c.A = some a → a.sparse = true
  cols : rowsOf (colsOf c.A) ≠ 0 → 2 * (onBuses c).card + 2 * (onGens c).card ≤ (colsOf c.A).length

end

end Verif.Opf
