import Verif.SaveText.PyModel
import Verif.CaseIO.Model
import Verif.DType.Model

/-!
# Model of `savecase` to a Python file and of `loadcase` from it, text included

`savecase.py:33-382` for `version='2'` and `loadcase.py:60-205` for the name of a file.  Files are texts under names.  Not modelled: `.mat` files, a file that cannot be
opened, `userfcn` callbacks (the case has none), the tables returned one by one (`return_as_obj=False`).  `none` stands for an exception.
-/

namespace Verif.SaveText

open CaseIO

/-- The files: contents by name. -/
abbrev Files := List Char → Option (List Char)

/-! ### Saving -/

/-- A user matrix: sparse, or dense with a number of rows. -/
inductive UserMat where
  | sparse
  | dense (rows : ℕ)
deriving DecidableEq

/-- The case given to `savecase`: floats or integers, both as `Num`.  `none` for a key that is absent. -/
structure SaveCase where
  base : Num
  bus : Table Num
  gen : Table Num
  branch : Table Num
  areas : Option (Table Num) := none
  gencost : Option (Table Num) := none
  A : Option UserMat := none
  N : Option UserMat := none
  z0 : Option (List Num) := none
  zl : Option (List Num) := none
  zu : Option (List Num) := none

/-- `os.path.basename`: what follows the last slash. -/
def basename (p : List Char) : List Char := p.rtakeWhile (· != '/')

/-- Root and extension (savecase.py:77-91); `true`: a Python file. -/
def saveRoot (fname : List Char) : List Char × Bool :=
  if 2 < fname.length ∧ ".py".toList <:+ fname then
    if fname.dropLast.dropLast.dropLast = [] then (fname, true) else (fname.dropLast.dropLast.dropLast, true)
  else if 4 < fname.length ∧ ".mat".toList <:+ fname then (fname.dropLast.dropLast.dropLast.dropLast, false)
  else (fname, true)

/-- One conversion. -/
def cellText : Fmt × Num → Option (List Char)
  | (.d, x) => fmtD x
  | (.g9, x) => some (fmtG x)
  | (.f4, x) => some (fmtF x)

/-- `f` on every member, or an exception. -/
def mapAll {α β : Type} (f : α → Option β) : List α → Option (List β)
  | [] => some []
  | a :: l => (f a).bind fun b => (mapAll f l).map (b :: ·)

/-- Values separated by a comma and a space. -/
def commaSep : List (List Char) → List Char
  | [] => []
  | [c] => c
  | c :: cs => c ++ ", ".toList ++ commaSep cs

/-- A row of a table, indented by eight (savecase.py:184, 187, …). -/
def rowText (cells : List (List Char)) : List Char := "        [".toList ++ commaSep cells ++ "],\n".toList

/-- `ppc['key'] = array([ … ])` with the indentation and the quotes given. -/
def assignText (ind : List Char) (q : Char) (key : List Char) (rows : List (List (List Char))) : List Char :=
  ind ++ ("ppc[".toList ++ q :: key ++ q :: "] = array([\n".toList) ++ (rows.map rowText).flatten ++ "    ])\n".toList

/-- A table: the lines of comment and the assignment. -/
def tableText (head ind : List Char) (q : Char) (key : List Char) (rows : Option (List (List (Fmt × Num)))) : Option (List Char) :=
  (rows.bind (mapAll (mapAll cellText))).map fun t => head ++ assignText ind q key t

def indent1 : List Char := "    ".toList
def indent2 : List Char := "        ".toList

/-- The head of the file (savecase.py:150-170). -/
def headText (name : List Char) (comment : List (List Char)) : List Char :=
  "def ".toList ++ name ++ "():\n".toList ++ (comment.map fun c => '#' :: c ++ ['\n']).flatten ++
    "\n    ## PYPOWER Case Format : Version 2\n    ppc = {'version': '2'}\n\n    ##-----  Power Flow Data  -----##\n    ## system MVA base\n".toList

/-- The base power (savecase.py:172). -/
def baseText (x : Num) : List Char := "    ppc['baseMVA'] = ".toList ++ fmtG x ++ ['\n']

/-- Comments above the bus table (savecase.py:176-180): no space before the names of the multipliers. -/
def busHead (cols : ℕ) : List Char :=
  "\n    ## bus data\n    # bus_i type Pd Qd Gs Bs area Vm Va baseKV zone Vmax Vmin".toList ++
    (if 17 ≤ cols then "lam_P lam_Q mu_Vmax mu_Vmin".toList else []) ++ ['\n']

/-- Comments above the generator table (savecase.py:192-198). -/
def genHead (cols : ℕ) : List Char :=
  "\n    ## generator data\n    # bus Pg Qg Qmax Qmin Vg mBase status Pmax Pmin Pc1 Pc2 Qc1min Qc1max Qc2min Qc2max ramp_agc ramp_10 ramp_30 ramp_q apf".toList ++
    (if 25 ≤ cols then " mu_Pmax mu_Pmin mu_Qmax mu_Qmin".toList else []) ++ ['\n']

/-- Comments above the branch table (savecase.py:219-227). -/
def branchHead (cols : ℕ) : List Char :=
  "\n    ## branch data\n    # fbus tbus r x b rateA rateB rateC ratio angle status angmin angmax".toList ++
    (if 17 ≤ cols then " Pf Qf Pt Qt".toList else []) ++
    (if 19 ≤ cols then " mu_Sf mu_St mu_angmin mu_angmax".toList else []) ++ ['\n']

/-- A natural number. -/
def natOf : Num → Option ℕ
  | .fin q => if q.den = 1 ∧ 0 ≤ q.num then some q.num.toNat else none
  | _ => none

/-- One row of the cost table.  Only rows with model 1 or 2 and a whole number of points or coefficients are modelled. -/
def costRow (r : List Num) : Option (CostRow Num) := do
  let m ← r[0]?
  let n ← r[3]?
  let n ← natOf n
  if m = .fin 1 then some ⟨true, n, r⟩ else if m = .fin 2 then some ⟨false, n, r⟩ else none

/-- The rows of the cost table (savecase.py:268-287). -/
def costRows (t : Table Num) : Option (List (List (Fmt × Num))) := (mapAll costRow t.rows).bind saveCost

/-- `(areas is not None) and (len(areas) > 0)`. -/
def nonEmpty : Option (Table Num) → Bool
  | some t => t.rows ≠ []
  | none => false

/-- The areas (savecase.py:254-263). -/
def areasText (t : Option (Table Num)) : Option (List Char) :=
  match t with
  | some t =>
    if t.rows = [] then some []
    else tableText "\n    ## area data\n    # area refbus\n".toList indent1 '\'' "areas".toList (formatRows [.d, .d] (List.take 2) t.rows)
  | none => some []

/-- The costs (savecase.py:264-288). -/
def costText (t : Option (Table Num)) : Option (List Char) :=
  match t with
  | some t =>
    if t.rows = [] then some []
    else tableText "\n    ## generator cost data\n    # 1 startup shutdown n x1 y1 ... xn yn\n    # 2 startup shutdown n c(n-1) ... c0\n".toList indent1 '\''
      "gencost".toList (costRows t)
  | none => some []

/-- The line above the optimal power flow data (savecase.py:252-253). -/
def opfHead (c : SaveCase) : List Char :=
  if nonEmpty c.areas || nonEmpty c.gencost then "\n    ##-----  OPF Data  -----##".toList else []

/-- A user matrix (savecase.py:291-338): `len` of a sparse matrix raises, and so does `tocoo` of a dense one with rows (savecase.py:386). -/
def userText : Option UserMat → Option Unit
  | none => some ()
  | some (.dense 0) => some ()
  | _ => none

/-- One of the user variable vectors (savecase.py:343-357): each line formats the whole array, which works for one element only. -/
def zText (ind key : List Char) : Option (List Num) → Option (List Char)
  | none => some []
  | some [] => some []
  | some [x] => tableText [] ind '"' key (some [[(.g9, x)]])
  | some _ => none

/-- The user variables (savecase.py:341-357); the line of `zl` is indented by eight. -/
def zsText (c : SaveCase) : Option (List Char) :=
  if c.z0.isSome || c.zl.isSome || c.zu.isSome then do
    let a ← zText indent1 "z0".toList c.z0
    let b ← zText indent2 "zl".toList c.zl
    let d ← zText indent1 "zu".toList c.zu
    some ("\n    ## user vars\n".toList ++ a ++ b ++ d)
  else some []

/-- What is written to the file (savecase.py:150-363). -/
def saveText (name : List Char) (comment : List (List Char)) (c : SaveCase) : Option (List Char) := do
  let bus ← tableText (busHead c.bus.cols) indent1 '\'' "bus".toList (saveBus c.bus)
  let gen ← tableText (genHead c.gen.cols) indent1 '\'' "gen".toList (saveGen c.gen)
  let branch ← tableText (branchHead c.branch.cols) indent1 '\'' "branch".toList (saveBranch c.branch)
  let areas ← areasText c.areas
  let costs ← costText c.gencost
  userText c.A
  userText c.N
  let zs ← zsText c
  some (headText name comment ++ (baseText c.base ++ (bus ++ (gen ++ (branch ++ (opfHead c ++ (areas ++ (costs ++ (zs ++ "\n    return ppc\n".toList)))))))))

/-- `savecase(fname, ppc, comment)` (savecase.py:33-367): the name returned and the files afterwards.  `comment` holds the lines of comment. -/
def savecase (fs : Files) (fname : List Char) (c : SaveCase) (comment : List (List Char)) : Option (List Char × Files) :=
  if (saveRoot fname).2 then
    (saveText (basename (saveRoot fname).1) comment c).map fun t =>
      ((saveRoot fname).1 ++ ".py".toList, fun n => if n = (saveRoot fname).1 ++ ".py".toList then some t else fs n)
  else none

/-! ### Loading -/

/-- A two-dimensional array. -/
structure Arr where
  elem : DType.Elem
  table : Table ℚ

/-- `array` of a list of lists: integers if it has literals and every one is an integer.  Integers beyond 64 bits are not modelled. -/
def mkArr (rows : List (List SLit)) : Arr :=
  ⟨if (rows.all fun r => r.all fun x => x.lit.isInt) && !rows.all List.isEmpty then .int else .float,
    ⟨(rows.headD []).length, rows.map fun r => r.map SLit.val⟩⟩

/-- What `loadcase` returns. -/
structure Loaded where
  base : ℚ
  bus : Arr
  gen : Arr
  branch : Arr
  areas : Option Arr
  gencost : Option Arr
  z0 : Option Arr
  zl : Option Arr
  zu : Option Arr

/-- Names local to `loadcase`: its `eval` finds their values, or nothing when they have none yet, instead of what the file defines.  (From Python 3.13 on, `exec` inside a
function defines nothing that a later `eval` finds; the model is of the versions before.) -/
def localNames : List (List Char) :=
  ["casefile", "return_as_obj", "expect_gencost", "expect_areas", "info", "rootname", "extension", "fname", "lasterr", "d", "struct", "val", "s", "a", "k", "v", "e", "err5",
    "ppc", "result"].map String.toList

def Dict.arr (d : Dict) (k : List Char) : Option Arr :=
  match d.get k with
  | some (.arr rows) => some (mkArr rows)
  | _ => none

/-- Checks of the contents and conversion of the version (loadcase.py:163-194).  A table `gen` without rows has no second dimension.  Appending float columns makes the
table float. -/
def checkDict (d : Dict) : Option Loaded := do
  let base ← match d.get "baseMVA".toList with
    | some (.num x) => some x.val
    | _ => none
  let bus ← d.arr "bus".toList
  let gen ← d.arr "gen".toList
  let branch ← d.arr "branch".toList
  if gen.table.rows = [] then none else
    let elem (a : Arr) : DType.Elem := if gen.table.cols < 20 then .float else a.elem
    some ⟨base, bus, ⟨elem gen, (loadTables (-360) 360 none gen.table branch.table).1⟩, ⟨elem branch, (loadTables (-360) 360 none gen.table branch.table).2⟩,
      d.arr "areas".toList, d.arr "gencost".toList, d.arr "z0".toList, d.arr "zl".toList, d.arr "zu".toList⟩

/-- Executing the text of a Python case file `root.py` (loadcase.py:106-113): the function called is named like the file. -/
def loadText (root text : List Char) : Option Loaded :=
  if basename root ∈ localNames then none else (evalFile (basename root) text).bind checkDict

/-- `loadcase(casefile)` for a string (loadcase.py:62-113, 163-205): with the extension `.py` that file; without extension a `.mat` file (not modelled) before a `.py` file.
`splitext` finds no extension in a name that has only dots before it. -/
def loadcase (fs : Files) (casefile : List Char) : Option Loaded :=
  if ".py".toList <:+ casefile then
    if (basename casefile.dropLast.dropLast.dropLast).all (· == '.') then none
    else (fs casefile).bind (loadText casefile.dropLast.dropLast.dropLast)
  else if ".mat".toList <:+ casefile ∨ (fs (casefile ++ ".mat".toList)).isSome then none
  else (fs (casefile ++ ".py".toList)).bind (loadText casefile)

end Verif.SaveText
