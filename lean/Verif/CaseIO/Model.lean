/-!
# Options, loading and saving of cases

Model of `ppoption.py:192-223`, the version handling of `loadcase.py:177-194` with `ppc_1to2` (`loadcase.py:226-261`), and
the tables written to a Python case file by `savecase.py:176-286`.

Simplifications: option dictionaries are functions from names to optional values; the files themselves, comments, text
layout, areas and the generalised user data are not modelled; rows of a table all have the table's number of columns
(numpy arrays are rectangular) and rows are lists; a number printed with a format is kept together with the format.
-/

namespace Verif.CaseIO

/-! ## Options -/

/-- An options dictionary. -/
abbrev Opts (V : Type) := String → Option V

variable {V : Type}

/-- Dictionary assignment. -/
def Opts.put (d : Opts V) (k : String) (v : V) : Opts V := fun n => if n = k then some v else d n

/-- `default_ppopt[name.upper()] = default` for each row of the option tables in order (ppoption.py:213-216). -/
def defaults (table : List (String × V)) : Opts V :=
  table.foldl (fun d p => d.put p.1.toUpper p.2) fun _ => none

/-- `ppopt.update(kw_args)` (ppoption.py:220). -/
def update (d : Opts V) (kw : List (String × V)) : Opts V := kw.foldl (fun d p => d.put p.1 p.2) d

/-- Dictionary objects in memory; an object is named by its position. -/
abbrev Heap (V : Type) := List (Opts V)

/-- `ppoption(ppopt, **kw_args)` (ppoption.py:192-223) on a memory `h`: the argument is absent or the name of a dictionary;
the result is the new memory and the name of the returned dictionary. A name that is not in memory cannot be passed. -/
def ppoption (table : List (String × V)) (h : Heap V) (arg : Option Nat) (kw : List (String × V)) :
    Option (Heap V × Nat) :=
  let h1 := h ++ [defaults table]
  match arg with
  | none => some (h1.set h.length (update (defaults table) kw), h.length)
  | some a =>
    match h1[a]? with
    | none => none
    | some d => some ((h1 ++ [d]).set (h.length + 1) (update d kw), h.length + 1)

/-! ## Tables -/

/-- A numpy table: its number of columns and its rows. -/
structure Table (R : Type) where
  cols : Nat
  rows : List (List R)

/-- The rows all have the stated number of columns. -/
def Table.Rect {R : Type} (t : Table R) : Prop := ∀ r ∈ t.rows, r.length = t.cols

variable {R : Type} [OfNat R 0]

/-- `row[a:b]`. -/
def slice (row : List R) (a b : Nat) : List R := (row.take b).drop a

/-- The generator part of `ppc_1to2` (loadcase.py:235-244): 11 zero columns after `PMIN`; the multiplier columns are
`gen[:, 10:13]` when the table has at least 13 columns. -/
def gen1to2 (gen : Table R) : Table R :=
  if 13 ≤ gen.cols then
    ⟨min gen.cols 10 + 11 + (min gen.cols 13 - 10),
      gen.rows.map fun r => slice r 0 10 ++ List.replicate 11 0 ++ slice r 10 13⟩
  else ⟨min gen.cols 10 + 11, gen.rows.map fun r => slice r 0 10 ++ List.replicate 11 0⟩

/-- The branch part of `ppc_1to2` (loadcase.py:246-259) with the two limit columns `lo`, `hi` (-360 and 360): the solution
columns taken are `branch[:, 12:19]` for at least 15 columns (loadcase.py:255), the second case (loadcase.py:257) has the
same condition on the width, and otherwise none. -/
def branch1to2 (lo hi : R) (br : Table R) : Table R :=
  if 15 ≤ br.cols then
    ⟨min br.cols 11 + 2 + (min br.cols 19 - 12) + 2,
      br.rows.map fun r => slice r 0 11 ++ [lo, hi] ++ slice r 12 19 ++ [0, 0]⟩
  else if 15 ≤ br.cols then
    ⟨min br.cols 11 + 2 + (min br.cols 17 - 12), br.rows.map fun r => slice r 0 11 ++ [lo, hi] ++ slice r 12 17⟩
  else ⟨min br.cols 11 + 2, br.rows.map fun r => slice r 0 11 ++ [lo, hi]⟩

/-- `ppc_1to2` (loadcase.py:226-261): tables with at least 20 generator columns are returned as they are. -/
def ppc1to2 (lo hi : R) (gen br : Table R) : Table R × Table R :=
  if 20 ≤ gen.cols then (gen, br) else (gen1to2 gen, branch1to2 lo hi br)

/-- Version handling of `loadcase` (loadcase.py:183-194). `declared` is the `version` entry of the case. `hasattr` on a
dictionary is false for every key, so the declared version is not looked at: fewer than 21 generator columns mean
version 1. -/
def loadTables (lo hi : R) (_declared : Option String) (gen br : Table R) : Table R × Table R :=
  if gen.cols < 21 then ppc1to2 lo hi gen br else (gen, br)

/-! ## Saving -/

/-- The print formats used: `%d`, `%.9g`, `%.4f`. -/
inductive Fmt where
  | d
  | g9
  | f4
deriving DecidableEq

/-- `template % tuple(args)`: raises unless there are as many values as conversions. -/
def format {R : Type} (fs : List Fmt) (args : List R) : Option (List (Fmt × R)) :=
  if fs.length = args.length then some (fs.zip args) else none

/-- Formatting every row of a table. -/
def formatRows {R : Type} (fs : List Fmt) (cut : List R → List R) : List (List R) → Option (List (List (Fmt × R)))
  | [] => some []
  | r :: rs =>
    match format fs (cut r), formatRows fs cut rs with
    | some x, some xs => some (x :: xs)
    | _, _ => none

open Fmt

/-- The bus formats (savecase.py:184). -/
def busBase : List Fmt := [d, d, g9, g9, g9, g9, d, g9, g9, g9, d, g9, g9]

/-- The generator formats (savecase.py:206). -/
def genBase : List Fmt :=
  [d, g9, g9, g9, g9, g9, g9, d, g9, g9, g9, g9, g9, g9, g9, g9, g9, g9, g9, g9, g9]

/-- The branch formats (savecase.py:234). -/
def branchBase : List Fmt := [d, d, g9, g9, g9, g9, g9, g9, g9, g9, d, g9, g9]

/-- Bus rows written (savecase.py:182-187). -/
def saveBus {R : Type} (t : Table R) : Option (List (List (Fmt × R))) :=
  if t.cols < 17 then formatRows busBase (List.take 13) t.rows
  else formatRows (busBase ++ [f4, f4, f4, f4]) (List.take 17) t.rows

/-- Generator rows written in version 2 (savecase.py:199-216). -/
def saveGen {R : Type} (t : Table R) : Option (List (List (Fmt × R))) :=
  if t.cols < 25 then formatRows genBase (List.take 21) t.rows
  else formatRows (genBase ++ [f4, f4, f4, f4]) (List.take 25) t.rows

/-- Branch rows written in version 2 (savecase.py:228-249). -/
def saveBranch {R : Type} (t : Table R) : Option (List (List (Fmt × R))) :=
  if t.cols < 17 then formatRows branchBase (List.take 13) t.rows
  else if t.cols < 19 then formatRows (branchBase ++ [f4, f4, f4, f4]) (List.take 17) t.rows
  else formatRows (branchBase ++ [f4, f4, f4, f4, f4, f4, f4, f4]) (List.take 21) t.rows

/-- One generator cost row: its model (`true`: piecewise linear) and its number of points or coefficients, with all its
values. Rows whose model is neither 1 nor 2 are not modelled. -/
structure CostRow (R : Type) where
  pwl : Bool
  ncost : Nat
  values : List R

/-- `n = max(2 * max NCOST of the piecewise linear rows, max NCOST of the polynomial rows)` (savecase.py:270-278). -/
def costColumns {R : Type} (rows : List (CostRow R)) : Nat :=
  rows.foldl (fun m r => max m (if r.pwl then 2 * r.ncost else r.ncost)) 0

/-- Cost rows written (savecase.py:281-286): the template has `n + 4` conversions and gets the whole row. -/
def saveCost {R : Type} (rows : List (CostRow R)) : Option (List (List (Fmt × R))) :=
  formatRows ([d, g9, g9, d] ++ List.replicate (costColumns rows) g9) id (rows.map CostRow.values)

end Verif.CaseIO
