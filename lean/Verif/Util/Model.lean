/-!
# Linear indices

Model of `util.sub2ind` (util.py:9-17). Subscripts are integers; Python's `%` with a positive divisor is `Int.emod`.
Simplification: one pair of subscripts at a time (the code is elementwise); the final `astype(int)` is the identity on
integers.
-/

namespace Verif.Util

/-- `sub2ind` (util.py:9-17). -/
def sub2ind (shape : Nat × Nat) (I J : Int) (row_major : Bool := false) : Int :=
  if row_major then (I % shape.1) * shape.2 + (J % shape.2) else (J % shape.2) * shape.1 + (I % shape.1)

/-- `m.flatten()`: rows one after another (numpy, as documented). -/
def flattenC {α : Type} (m : List (List α)) : List α := m.flatten

/-- Column `j` of a table. -/
def col {α : Type} (m : List (List α)) (j : Nat) : List α := m.filterMap fun r => r[j]?

/-- `m.flatten('F')` for a table with `nc` columns: columns one after another (numpy, as documented; used at
pipsopf_solver.py:122 and dcopf_solver.py:199). -/
def flattenF {α : Type} (nc : Nat) (m : List (List α)) : List α := ((List.range nc).map (col m)).flatten

end Verif.Util
