import Verif.SaveText.Model
import Verif.SaveText.NumRound

/-!
# Specification: what a saved case is when it is loaded again
-/

namespace Verif.SaveText

open CaseIO

/-- Entry in row `i`, column `j`. -/
def entry {R : Type} (t : Table R) (i j : ℕ) : Option R := (t.rows[i]?).bind fun r => r[j]?

/-- The number `r` read for a number `x` saved in column `j`: in the columns `whole` the integer next to `x` towards zero; in the other columns before `digits` the nearest
number of nine significant digits; from `digits` on the nearest multiple of 0.0001. -/
def Kept (whole : List ℕ) (digits j : ℕ) (x r : ℚ) : Prop :=
  if j ∈ whole then (∃ z : ℤ, r = z) ∧ |r| ≤ |x| ∧ |x - r| < 1
  else if j < digits then Nearest9 x r
  else Nearest4 x r

/-- The table `a` has the first `cols` columns of `t`, every number kept. -/
structure SameTable (whole : List ℕ) (digits cols : ℕ) (t : Table Num) (a : Arr) : Prop where
  rows : a.table.rows.length = t.rows.length
  width : ∀ r ∈ a.table.rows, r.length = cols
  shape : t.rows ≠ [] → a.table.cols = cols
  kept : ∀ (i j : ℕ) (x : ℚ), j < cols → entry t i j = some (.fin x) → ∃ r, entry a.table i j = some r ∧ Kept whole digits j x r
  elem : a.elem = .int ↔ t.rows ≠ [] ∧ cols ≤ digits ∧
    ∀ (i j : ℕ) (r : ℚ), j ∉ whole → entry a.table i j = some r → (∃ z : ℤ, r = z) ∧ |r| < 10 ^ 9

/-- A table that may be absent or empty: it is then absent after loading. -/
def SameOpt (whole : List ℕ) (digits cols : Table Num → ℕ) (t : Option (Table Num)) (a : Option Arr) : Prop :=
  match t with
  | some t => if t.rows = [] then a = none else ∃ b, a = some b ∧ SameTable whole (digits t) (cols t) t b
  | none => a = none

/-- A vector of user variables of at most one element: a table of one entry after loading. -/
def SameVec (z : Option (List Num)) (a : Option Arr) : Prop :=
  match z with
  | some [x] => ∃ b, a = some b ∧ SameTable [] 1 1 ⟨1, [[x]]⟩ b
  | _ => a = none

/-- Columns of the bus table that are kept. -/
def busCols (n : ℕ) : ℕ := if n < 17 then 13 else 17
/-- Columns of the generator table that are kept. -/
def genCols (n : ℕ) : ℕ := if n < 25 then 21 else 25
/-- Columns of the branch table that are kept. -/
def branchCols (n : ℕ) : ℕ := if n < 17 then 13 else if n < 19 then 17 else 21

/-- The case read is the case saved, up to the digits printed. -/
structure SameCase (c : SaveCase) (l : Loaded) : Prop where
  base : ∀ b, c.base = .fin b → Nearest9 b l.base
  bus : SameTable [0, 1, 6, 10] 13 (busCols c.bus.cols) c.bus l.bus
  gen : SameTable [0, 7] 21 (genCols c.gen.cols) c.gen l.gen
  branch : SameTable [0, 1, 10] 13 (branchCols c.branch.cols) c.branch l.branch
  areas : SameOpt [0, 1] (fun _ => 2) (fun _ => 2) c.areas l.areas
  gencost : SameOpt [0, 3] (fun t => t.cols) (fun t => t.cols) c.gencost l.gencost
  z0 : SameVec c.z0 l.z0
  zl : l.zl = none
  zu : SameVec c.zu l.zu

/-- The cost table has exactly the columns its rows ask for: four and the largest of the numbers of coefficients and of twice the numbers of points. -/
def CostShape (t : Table Num) : Prop :=
  (∀ r ∈ t.rows, ∃ k : ℕ, r[3]? = some (.fin k) ∧ (r[0]? = some (.fin 1) ∧ 2 * k + 4 ≤ t.cols ∨ r[0]? = some (.fin 2) ∧ k + 4 ≤ t.cols)) ∧
  (∃ r ∈ t.rows, ∃ k : ℕ, r[3]? = some (.fin k) ∧ (r[0]? = some (.fin 1) ∧ 2 * k + 4 = t.cols ∨ r[0]? = some (.fin 2) ∧ k + 4 = t.cols))

/-- Every number is finite. -/
def AllFinite (t : Table Num) : Prop := ∀ r ∈ t.rows, ∀ x ∈ r, ∃ q : ℚ, x = .fin q

/-- Tables of the shapes `savecase` prints; no user matrices and no `zl`; vectors `z0`, `zu` of at most one element; at least one generator. -/
structure Shaped (c : SaveCase) : Prop where
  busRect : c.bus.Rect
  genRect : c.gen.Rect
  branchRect : c.branch.Rect
  bus : 13 ≤ c.bus.cols
  gen : 21 ≤ c.gen.cols
  genRows : c.gen.rows ≠ []
  branch : 13 ≤ c.branch.cols ∧ c.branch.cols ≠ 19 ∧ c.branch.cols ≠ 20
  areas : ∀ t, c.areas = some t → t.Rect ∧ 2 ≤ t.cols
  gencost : ∀ t, c.gencost = some t → t.Rect ∧ (t.rows ≠ [] → CostShape t)
  A : c.A = none ∨ c.A = some (.dense 0)
  N : c.N = none ∨ c.N = some (.dense 0)
  z0 : ∀ z, c.z0 = some z → z.length ≤ 1
  zu : ∀ z, c.zu = some z → z.length ≤ 1
  zl : ∀ z, c.zl = some z → z = []

/-- Every number of the case is finite. -/
structure Finite (c : SaveCase) : Prop where
  base : ∃ b, c.base = .fin b
  bus : AllFinite c.bus
  gen : AllFinite c.gen
  branch : AllFinite c.branch
  areas : ∀ t, c.areas = some t → AllFinite t
  gencost : ∀ t, c.gencost = some t → AllFinite t
  z0 : ∀ z, c.z0 = some z → ∀ x ∈ z, ∃ q : ℚ, x = .fin q
  zu : ∀ z, c.zu = some z → ∀ x ∈ z, ∃ q : ℚ, x = .fin q

/-- A file name whose last part, without `.py`, is a Python name, no reserved word and no name of a local variable of `loadcase`. -/
def GoodName (root : List Char) : Prop :=
  (∃ c s, basename root = c :: s ∧ (c.isAlpha = true ∨ c = '_') ∧ ∀ d ∈ s, d.isAlphanum = true ∨ d = '_') ∧ basename root ∉ keywords ∧ basename root ∉ localNames

/-- A number among the first `cols` columns is infinite or not a number. -/
def Unbounded (cols : ℕ) (t : Table Num) : Prop := ∃ (i j : ℕ) (x : Num), j < cols ∧ entry t i j = some x ∧ ∀ q : ℚ, x ≠ .fin q

/-- The numbers in the columns `whole` are finite. -/
def WholeFinite (whole : List ℕ) (t : Table Num) : Prop := ∀ (i j : ℕ) (x : Num), j ∈ whole → entry t i j = some x → ∃ q : ℚ, x = .fin q

/-- Bus numbers, types, statuses and the like are finite. -/
structure IdsFinite (c : SaveCase) : Prop where
  bus : WholeFinite [0, 1, 6, 10] c.bus
  gen : WholeFinite [0, 7] c.gen
  branch : WholeFinite [0, 1, 10] c.branch
  areas : ∀ t, c.areas = some t → WholeFinite [0, 1] t
  gencost : ∀ t, c.gencost = some t → WholeFinite [0, 3] t

/-- A number that is saved is infinite or not a number. -/
def HasInfinite (c : SaveCase) : Prop :=
  (∀ q : ℚ, c.base ≠ .fin q) ∨ Unbounded (busCols c.bus.cols) c.bus ∨ Unbounded (genCols c.gen.cols) c.gen ∨ Unbounded (branchCols c.branch.cols) c.branch ∨
    ∃ t, c.gencost = some t ∧ Unbounded t.cols t

/-- The numbers a loaded table holds, as a table to be saved. -/
def Arr.toTable (a : Arr) : Table Num := ⟨a.table.cols, a.table.rows.map fun r => r.map Num.fin⟩

/-- The loaded case, as a case to be saved. -/
def Loaded.toCase (l : Loaded) : SaveCase where
  base := .fin l.base
  bus := l.bus.toTable
  gen := l.gen.toTable
  branch := l.branch.toTable
  areas := l.areas.map Arr.toTable
  gencost := l.gencost.map Arr.toTable
  z0 := l.z0.map fun a => a.toTable.rows.flatten
  zl := l.zl.map fun a => a.toTable.rows.flatten
  zu := l.zu.map fun a => a.toTable.rows.flatten

end Verif.SaveText
