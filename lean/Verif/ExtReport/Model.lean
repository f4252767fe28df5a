import Verif.Dcline.Model
import Verif.Reserves.Model
import Verif.Iflims.Model
import Verif.Userfcn.Model
import Verif.Printpf.Model
import Mathlib.Data.List.ReduceOption

/-!
# Model of the reports and files of cases with reserves, interface limits or DC lines

The callbacks of the stages `printpf` and `savecase` of `toggle_reserves.py:279-410`, `toggle_iflims.py:189-257` and `toggle_dcline.py:342-458`, and the calls of them at the end of
`printpf.py` (685-689) and `savecase.py` (354-361).  `none` is an exception.  A line is a list of cells: what is printed, not with which digits.  Titles are left out.
-/

open Verif.NumPy (find gather)

namespace Verif.ExtReport

open Dcline (DcLine Mu)
open Printpf (PrintOpt)

open scoped Classical

noncomputable section

/-! ### Python -/

/-- Objects that are formatted, called or asked for attributes here. -/
inductive PyObj where
  | num (x : EReal)
  | text (s : String)
  | arr (xs : List ℝ)
  | table (rows : List (List ℝ))
  | dict

/-- What is seen in a line. -/
inductive Cell where
  | num (x : EReal)
  | text (s : String)

/-- Conversions `%d`/`%f` and `%s`. -/
inductive Spec where
  | d
  | s

/-- One conversion: numbers and arrays of one element only for `%d`; arrays after `%s` are written out (not modelled: as an empty text). -/
def convert : Spec → PyObj → Option Cell
  | .d, .num x => some (.num x)
  | .d, .arr [x] => some (.num x)
  | .d, .table [[x]] => some (.num x)
  | .d, _ => none
  | .s, .text s => some (.text s)
  | .s, .num x => some (.num x)
  | .s, _ => some (.text "")

/-- `template % args`: as many arguments as conversions. -/
def percent : List Spec → List PyObj → Option (List Cell)
  | [], [] => some []
  | c :: cs, a :: as => (convert c a).bind fun x => (percent cs as).map (x :: ·)
  | _, _ => none

/-- A call with `given` positional arguments of a function that takes at least `least` and at most `most`. -/
def call (least most given : ℕ) : Option Unit := if least ≤ given ∧ given ≤ most then some () else none

/-- `o(…)`: none of the objects is a function. -/
def callObj (_ : PyObj) : Option PyObj := none

/-- `o.name` for the names of fields: dictionaries, numbers and arrays have no such attribute. -/
def attr (_ : PyObj) (_ : String) : Option PyObj := none

/-! ### DC lines -/

abbrev Line := List Cell

def num (x : ℝ) : Cell := .num (x : EReal)
def dash : Cell := .text "-"

/-- Columns `F_BUS:T_BUS+1` of a row. -/
def ends (d : DcLine) : PyObj := .arr [(d.fbus : ℝ), (d.tbus : ℝ)]

/-- The template of a line that is out of service (toggle_dcline.py:386-387, 423-424). -/
def offLine (k : ℕ) (d : DcLine) : Option Line :=
  percent [.d, .d, .d, .s, .s, .s, .s, .s] [.num ((k : ℝ) : EReal), ends d, .text "-", .text "-", .text "-", .text "-", .text "-"]

/-- toggle_dcline.py:381-387: one line of the data section. -/
def dataLine (k : ℕ) (d : DcLine) : Option Line :=
  if d.status ≠ 0 then some [num k, num d.fbus, num d.tbus, num d.pf, num d.pt, num (d.pf - d.pt), num d.qf, num d.qt] else offLine k d

/-- toggle_dcline.py:379, 384: the running total of the losses. -/
def totalLoss (dc : List DcLine) : ℝ := dc.foldl (fun a d => if d.status ≠ 0 then a + d.pf - d.pt else a) 0

/-- toggle_dcline.py:366. -/
def ptol : ℝ := 1e-4

/-- The test of toggle_dcline.py:403-406 with option 1. -/
def binding (ctol : ℝ) (d : DcLine) (m : Mu) : Prop := d.pf > d.pmax - ctol ∨ m.pmin > ptol ∨ m.pmax > ptol

/-- A multiplier if it is not negligible (toggle_dcline.py:410-413, 417-420). -/
def muCell (m : ℝ) : Cell := if m > ptol then num m else dash

/-- toggle_dcline.py:403-424: one line of the constraint section, if there is one. -/
def limLine (lim : ℕ) (ctol : ℝ) (k : ℕ) (d : DcLine) (m : Mu) : Option (Option Line) :=
  if lim = 2 ∨ (lim = 1 ∧ binding ctol d m) then
    if d.status ≠ 0 then some (some [num k, num d.fbus, num d.tbus, muCell m.pmin, num d.pmin, num d.pf, num d.pmax, muCell m.pmax])
    else (offLine k d).map some
  else some none

structure DcReport where
  data : Option (List Line × ℝ)
  limits : Option (List Line)

/-- toggle_dcline.py:371, 392-395: is there a constraint section?  Rows in service are looked at.  A missing multiplier column raises unless a flow at its limit comes first. -/
def limHeader (lim : ℕ) (ctol : ℝ) (dc : List DcLine) (mu : Option (List Mu)) : Option Bool :=
  if lim = 2 then some true
  else if lim = 1 then
    if ∃ d ∈ dc, d.status ≠ 0 ∧ d.pf > d.pmax - ctol then some true
    else mu.map fun ms => decide (∃ p ∈ dc.zip ms, p.1.status ≠ 0 ∧ (p.2.pmin > ptol ∨ p.2.pmax > ptol))
  else some false

/-- Simplified: with a constraint section all multipliers are read. -/
def limLines (lim : ℕ) (ctol : ℝ) (dc : List DcLine) (mu : Option (List Mu)) : Option (List Line) :=
  mu.bind fun ms => (((dc.zip ms).zipIdx).mapM fun p => limLine lim ctol p.2 p.1.1 p.1.2).map List.reduceOption

/-- toggle_dcline.py:392-426. -/
def limSection (lim : ℕ) (ctol : ℝ) (dc : List DcLine) (mu : Option (List Mu)) : Option (Option (List Line)) :=
  (limHeader lim ctol dc mu).bind fun c => if c then (limLines lim ctol dc mu).map some else some none

/-- toggle_dcline.py:372-390. -/
def dataSection (o : PrintOpt) (dc : List DcLine) : Option (Option (List Line × ℝ)) :=
  if o.flag (·.OUT_BRANCH) then (dc.zipIdx.mapM fun p => dataLine p.2 p.1).map fun ls => some (ls, totalLoss dc) else some none

/-- `userfcn_dcline_printpf` (toggle_dcline.py:342-428). -/
def dcPrint (o : PrintOpt) (dc : List DcLine) (mu : Option (List Mu)) : Option DcReport :=
  (dataSection o dc).bind fun a => (limSection (o.lim (·.OUT_LINE_LIM)) o.OPF_VIOLATION dc mu).map fun b => ⟨a, b⟩

/-- `userfcn_dcline_savecase` (toggle_dcline.py:432-458): the rows go to `write` as a second argument; the template that is written before is a list and a text for solved lines,
whose sum raises too (not modelled). -/
def dcSave (_ : List DcLine) : Option Unit := call 1 1 2

/-! ### Interface limits -/

/-- One line of `userfcn_iflims_printpf` (toggle_iflims.py:209-220): `iflims(k, 1)` comes first. -/
def ifLine (lims : List Iflims.LimRow) (_ : ℕ) : Option Line :=
  (callObj (.table (lims.map fun l => [(l.1 : ℝ), l.2.1, l.2.2]))).bind fun _ => some []

/-- `userfcn_iflims_printpf` (toggle_iflims.py:189-224). -/
def ifPrint (o : PrintOpt) (lims : List Iflims.LimRow) : Option (List Line) :=
  if o.OUT_ALL = 0 then some [] else (List.range (Iflims.ifidx lims).length).mapM (ifLine lims)

/-- `'\t%d\t%d;\n' % ifmap.T` (toggle_iflims.py:227-257, the first that is written of the data): an array is one argument. -/
def ifSave (m : List Iflims.MapRow) : Option Unit := (percent [.d, .d] [.table (m.map fun r => [(r.1 : ℝ), (r.2 : ℝ)])]).map fun _ => ()

/-! ### Reserves -/

/-- What is printed of the results (toggle_reserves.py:284-355): columns of `gen` and vectors of `results['reserves']` per generator, multipliers of the requirements per zone. -/
structure ResData where
  base : ℝ
  bus : List ℕ
  status : List ℝ
  igr : List ℕ
  zones : List (List ℝ)
  req : List ℝ
  R : List ℝ
  Rmin : List EReal
  Rmax : List EReal
  muL : List ℝ
  muU : List ℝ
  muPmax : List ℝ
  prc : List ℝ
  mu : List ℝ
  totalcost : ℝ

/-- A number if the generator is in service and the number is not negligible (toggle_reserves.py:298-301, 331-352). -/
def shown (st : ℝ) (big : Prop) [Decidable big] (x : EReal) : Cell := if 0 < st ∧ big then .num x else dash

/-- toggle_reserves.py:295-309. -/
def genLine (r : ResData) (k : ℕ) : Option Line := do
  let b ← r.bus[k]?
  let st ← r.status[k]?
  let R ← r.R[k]?
  let p ← r.prc[k]?
  some ([num k, num b, num st, shown st (|R| > 1e-6) (R : EReal), num p] ++ (Reserves.zonesOf r.zones k).map fun z : ℕ => num z)

/-- toggle_reserves.py:317-320. -/
def zoneLine (r : ResData) (k : ℕ) : Option Line := do
  let row ← r.zones[k]?
  let Rs ← gather r.R (find (row.map fun v => decide (v ≠ 0)))
  let m ← r.mu[k]?
  some [num k, num Rs.sum, num (m / r.base)]

/-- toggle_reserves.py:329-352. -/
def resLimLine (r : ResData) (k : ℕ) : Option Line := do
  let b ← r.bus[k]?
  let st ← r.status[k]?
  let R ← r.R[k]?
  let lo ← r.Rmin[k]?
  let up ← r.Rmax[k]?
  let ml ← r.muL[k]?
  let mu ← r.muU[k]?
  let mp ← r.muPmax[k]?
  some [num k, num b, num st, shown st (ml > 1e-6) (ml : EReal), .num lo, shown st (|R| > 1e-6) (R : EReal), .num up, shown st (mu > 1e-6) (mu : EReal), shown st (mp > 1e-6) (mp : EReal)]

structure ResReport where
  gens : List Line
  total : ℝ
  cost : ℝ
  zones : List Line
  limits : List Line
  total' : ℝ

/-- `userfcn_reserves_printpf` (toggle_reserves.py:279-357). -/
def resPrint (o : PrintOpt) (r : ResData) : Option (Option ResReport) :=
  if o.OUT_ALL = 0 then some none else do
    let gens ← r.igr.mapM (genLine r)
    let Rs ← gather r.R r.igr
    let zones ← (List.range r.req.length).mapM (zoneLine r)
    let limits ← r.igr.mapM (resLimLine r)
    some (some ⟨gens, Rs.sum, r.totalcost, zones, limits, Rs.sum⟩)

/-- `userfcn_reserves_savecase` (toggle_reserves.py:360-410, the first that is written of the data): `r.zones.T` of a dictionary. -/
def resSave : Option Unit := (attr .dict "zones").map fun _ => ()

/-! ### The stages -/

/-- The functions that are registered; `user n` are functions of the user, of which nothing is known. -/
inductive Fcn where
  | stage (n : ℕ)
  | resPrint | resSave
  | ifPrint | ifSave
  | dcPrint | dcSave
  | user (n : ℕ)
deriving DecidableEq

/-- What is registered for each extension (toggle_reserves.py:78-82, toggle_iflims.py:65-69, toggle_dcline.py:81-85). -/
def reserves : Userfcn.Ext Fcn := ⟨.stage 0, .stage 1, .stage 2, .resPrint, .resSave⟩
def iflims : Userfcn.Ext Fcn := ⟨.stage 3, .stage 4, .stage 5, .ifPrint, .ifSave⟩
def dcline : Userfcn.Ext Fcn := ⟨.stage 6, .stage 7, .stage 8, .dcPrint, .dcSave⟩

inductive Section where
  | dc (r : DcReport)
  | ifl (ls : List Line)
  | res (r : Option ResReport)
  | user (n : ℕ)

/-- The results as far as the callbacks look at them (`none` for a missing field, a `KeyError`), and what was printed. -/
structure State where
  dc : Option (List DcLine × Option (List Mu))
  lims : Option (List Iflims.LimRow × List Iflims.MapRow)
  res : Option ResData
  out : List Section

variable {A : Type}

/-- The callbacks with the signatures of run_userfcn.py:40-45; `user` are those of the user. -/
def calls (user : ℕ → State → Option State) : Userfcn.Calls Fcn A State Unit PrintOpt where
  call2 _ _ _ := none
  call4 f s _ o _ :=
    match f with
    | .dcPrint => s.dc.bind fun p => (dcPrint o p.1 p.2).map fun r => { s with out := s.out ++ [.dc r] }
    | .ifPrint => s.lims.bind fun p => (ifPrint o p.1).map fun r => { s with out := s.out ++ [.ifl r] }
    | .resPrint => s.res.bind fun p => (resPrint o p).map fun r => { s with out := s.out ++ [.res r] }
    | .dcSave => s.dc.bind fun p => (dcSave p.1).map fun _ => s
    | .ifSave => s.lims.bind fun p => (ifSave p.2).map fun _ => s
    | .resSave => s.res.bind fun _ => resSave.map fun _ => s
    | .user n => user n s
    | .stage _ => none

/-- The end of `printpf` (printpf.py:685-689): `ppoption` takes one positional argument and is given three if the results are not those of an optimal power flow. -/
def printTail (user : ℕ → State → Option State) (o : PrintOpt) (isOPF : Bool) (reg : Userfcn.Reg Fcn A) (s : State) : Option State :=
  match reg with
  | none => some s
  | some d => (if isOPF then some () else call 0 1 3).bind fun _ => Userfcn.run (calls user) d "printpf" s (some ((), o))

/-- `printpf(results, fd, ppopt)` with its callbacks: the tables, the report and what the callbacks printed. -/
def printAll (area : List ℝ → ℤ) (user : ℕ → State → Option State) (o : PrintOpt) (isOPF : Bool) (base : ℝ) (t : Index.Case Opf.Tables) (reg : Userfcn.Reg Fcn A) (s : State) :
    Option ((Index.Case Opf.Tables × Option Printpf.Report) × State) :=
  if o.OUT_ALL = 0 then some ((t, none), s)
  else (Printpf.printpf area o isOPF base t).bind fun p => (printTail user o isOPF reg s).map fun s' => (p, s')

/-- The end of `savecase` to a Python file (savecase.py:354-361), `text` being what was written before and `o` the prefix, which no callback that returns looks at: the last
line, or an exception before it. -/
def saveTail (user : ℕ → State → Option State) (o : PrintOpt) (reg : Userfcn.Reg Fcn A) (s : State) (text : String) : Option String :=
  match reg with
  | none => some (text ++ "\n    return ppc\n")
  | some d => (Userfcn.run (calls user) d "savecase" s (some ((), o))).map fun _ => text ++ "\n    return ppc\n"

end

end Verif.ExtReport
