/-!
# Index-array primitives of numpy used by PYPOWER

Small total models of the three numpy idioms that appear throughout `/repo/pypower`:

* `find(mask)` (`numpy.flatnonzero`), e.g. ext2int.py:117-127;
* fancy indexing `A[idx]` / `A[idx, :]`, e.g. ext2int.py:137, get_reorder.py:22-27;
* fancy assignment `A[idx, :] = B`, e.g. int2ext.py:77-82, set_reorder.py:25-30.

A two-dimensional table is a list of rows.  An out-of-range index raises `IndexError` in numpy; here that is `none`.
-/

namespace Verif.NumPy

/-- `numpy.flatnonzero` shifted by `k`: positions (counted from `k`) of the `true` entries. -/
def findFrom : Nat → List Bool → List Nat
  | _, [] => []
  | k, b :: bs => if b then k :: findFrom (k + 1) bs else findFrom (k + 1) bs

/-- `find(mask)` = `numpy.flatnonzero(mask)` (imported as `find` e.g. ext2int.py:12). -/
def find (bs : List Bool) : List Nat := findFrom 0 bs

/-- Fancy indexing `xs[idx]` (get_reorder.py:22,25; ext2int.py:137,140,143,172).
`none` models `IndexError`.  Negative indices are not modelled (indices are naturals). -/
def gather {α : Type _} (xs : List α) : List Nat → Option (List α)
  | [] => some []
  | i :: is =>
    match xs[i]?, gather xs is with
    | some x, some r => some (x :: r)
    | _, _ => none

/-- Fancy assignment `xs[idx] = vals` (int2ext.py:77-85; set_reorder.py:25,28,30).
`none` models the exceptions raised for an out-of-range index or for a shape mismatch.
Simplification: numpy's broadcasting of a single row of values to several indices is not modelled
(it is reported as a mismatch). -/
def scatter {α : Type _} (xs : List α) : List Nat → List α → Option (List α)
  | [], [] => some xs
  | i :: is, v :: vs => if i < xs.length then scatter (xs.set i v) is vs else none
  | _, _ => none

end Verif.NumPy
