import Verif.Runpf.TableModel

/-!
# Model of `printpf.py` and of the printing done by `runpf` and `runopf`

What is printed is recorded as numbers (before rounding by the format strings); headings, the order of the sections, the convergence message, the elapsed time and the `printpf`
callbacks (printpf.py:685-689) are not modelled.  An exception is `none`.  Rows are those of `Verif/Opf/RunModel`; `BUS_AREA` is one of the columns in `rest`, so it is read by a parameter
`area` (area numbers are integers).  Division by a zero impedance or voltage (inf/NaN in numpy) is 0 here; the theorems exclude it.
-/

namespace Verif.Printpf

open Verif.Opf (Tables BusD GenD BrD)
open Verif.Index (BusRow GenRow BranchRow)
open Verif.NumPy (find gather)

noncomputable section

/-- The options read by `printpf` (printpf.py:93-124, 455, 641); limits options take the documented values 0, 1, 2 (and −1 for the overall one). -/
structure PrintOpt where
  PF_DC : Bool
  OUT_ALL : Int
  OUT_SYS_SUM : Bool
  OUT_AREA_SUM : Bool
  OUT_BUS : Bool
  OUT_BRANCH : Bool
  OUT_GEN : Bool
  OUT_ALL_LIM : Int
  OUT_V_LIM : ℕ
  OUT_LINE_LIM : ℕ
  OUT_PG_LIM : ℕ
  OUT_QG_LIM : ℕ
  OPF_VIOLATION : ℝ
  OPF_FLOW_LIM : Int

/-- The defaults (ppoption.py:113-154; `OPF_VIOLATION` 5e-6, `OPF_FLOW_LIM` 0). -/
def defaults : PrintOpt := ⟨false, -1, true, false, true, true, false, -1, 1, 1, 1, 1, 5e-6, 0⟩

/-- printpf.py:96-100: is a section printed? -/
def PrintOpt.flag (o : PrintOpt) (f : PrintOpt → Bool) : Bool := o.OUT_ALL == 1 || (o.OUT_ALL == -1 && f o)

/-- printpf.py:105-122: the limit option in force. -/
def PrintOpt.lim (o : PrintOpt) (f : PrintOpt → ℕ) : ℕ :=
  let all : Int := if o.OUT_ALL = -1 then o.OUT_ALL_LIM else if o.OUT_ALL = 1 then 2 else 0
  if all = -1 then f o else all.toNat

/-- printpf.py:138-141: assignments into the arrays of the caller. -/
def dcZero (t : Index.Case Tables) : Index.Case Tables :=
  { t with
    bus := t.bus.map fun b => { b with data := { b.data with QD := 0, BS := 0 } }
    gen := t.gen.map fun g => { g with data := { g.data with QG := 0, QMAX := 0, QMIN := 0 } }
    branch := t.branch.map fun l => { l with data := { l.data with r := 0, b := 0 } } }

/-- `bus[e2i[n]]` (printpf.py:128-130, 144): numbers that do not occur below the largest read row 0, larger ones raise. -/
def rowAt (bus : List (BusRow BusD)) (n : ℕ) : Option (BusRow BusD) := (Index.e2iArray (bus.map (·.num)))[n]?.bind (bus[·]?)

/-- A row of the branch table with the rows of its end buses. -/
structure Ends where
  l : BranchRow BrD
  f : BusRow BusD
  t : BusRow BusD

/-- `bus[e2i[branch[:, F_BUS]]]`, `bus[e2i[branch[:, T_BUS]]]` (printpf.py:144-145). -/
def ends (t : Index.Case Tables) : Option (List Ends) :=
  t.branch.mapM fun l => (rowAt t.bus l.f).bind fun f => (rowAt t.bus l.t).map fun g => ⟨l, f, g⟩

/-- `bus[e2i[gen[:, GEN_BUS]]]` (printpf.py:248, 341). -/
def genRows (t : Index.Case Tables) : Option (List (GenRow GenD × BusRow BusD)) :=
  t.gen.mapM fun g => (rowAt t.bus g.bus).map fun b => (g, b)

/-- printpf.py:159: note the sign of the exponent. -/
def volt (b : BusRow BusD) : ℂ := (b.data.VM : ℂ) * Complex.exp (-(Complex.I * ((Real.pi / 180 * b.data.VA : ℝ) : ℂ)))

/-- printpf.py:147-150. -/
def tap (l : BrD) : ℂ := ((if l.tap = 0 then 1 else l.tap : ℝ) : ℂ) * Complex.exp (-(Complex.I * ((Real.pi / 180 * l.shift : ℝ) : ℂ)))

/-- printpf.py:160-173. -/
def loss (dc : Bool) (base : ℝ) (e : Ends) : ℂ :=
  if e.l.status = 0 then 0 else if dc then 0
  else (base : ℂ) * ((‖volt e.f / tap e.l.data - volt e.t‖ ^ 2 : ℝ) : ℂ) / ((e.l.data.r : ℂ) - Complex.I * e.l.data.x)
def fchg (base : ℝ) (e : Ends) : ℝ := if e.l.status = 0 then 0 else ‖volt e.f / tap e.l.data‖ ^ 2 * e.l.data.b * base / 2
def tchg (base : ℝ) (e : Ends) : ℝ := if e.l.status = 0 then 0 else ‖volt e.t‖ ^ 2 * e.l.data.b * base / 2

/-- isload.py:21. -/
def isload (g : GenRow GenD) : Bool := decide (g.data.PMIN < 0) && decide (g.data.PMAX = 0)

/-- printpf.py:156-158. -/
def allg (t : Index.Case Tables) : List (GenRow GenD) := t.gen.filter fun g => !isload g
def ong (t : Index.Case Tables) : List (GenRow GenD) := t.gen.filter fun g => decide (0 < g.status) && !isload g
def onld (t : Index.Case Tables) : List (GenRow GenD) := t.gen.filter fun g => decide (0 < g.status) && isload g

/-- printpf.py:151, 155: rows with a fixed load, with a shunt. -/
def nzld (t : Index.Case Tables) : List (BusRow BusD) := t.bus.filter fun b => decide (b.data.PD ≠ 0) || decide (b.data.QD ≠ 0)
def nzsh (t : Index.Case Tables) : List (BusRow BusD) := t.bus.filter fun b => decide (b.data.GS ≠ 0) || decide (b.data.BS ≠ 0)

variable (area : List ℝ → ℤ)

/-- `bus[i, BUS_AREA]`. -/
def areaOf (b : BusRow BusD) : ℤ := area b.data.rest

/-- printpf.py:152-154: `sorted_areas[r_[1, find(diff(sorted_areas)) + 1]]`. -/
def sAreas (t : Index.Case Tables) : Option (List ℤ) :=
  let s := (t.bus.map (areaOf area)).insertionSort (· ≤ ·)
  gather s (1 :: (find (List.zipWith (fun x y => y - x != 0) s s.tail)).map (· + 1))

/-- Sum of a column over rows. -/
def total {α : Type} (f : α → ℝ) (l : List α) : ℝ := (l.map f).sum

/-- Smallest (largest) entry of a column and the first row where it is found (printpf.py:208-235); `none`: `max` of no value raises. -/
def minRow {α : Type} (f : α → ℝ) : List α → Option (ℝ × α)
  | [] => none
  | x :: xs => match minRow f xs with
    | none => some (f x, x)
    | some p => if f x ≤ p.1 then some (f x, x) else some p
def maxRow {α : Type} (f : α → ℝ) (l : List α) : Option (ℝ × α) := (minRow (fun x => -f x) l).map fun p => (-p.1, p.2)

/-- The numbers of the system summary (printpf.py:187-236). -/
structure Sys where
  buses : ℕ
  gens : ℕ
  committed : ℕ
  loads : ℕ
  fixed : ℕ
  disp : ℕ
  shunts : ℕ
  branches : ℕ
  xfmrs : ℕ
  ties : ℕ
  areas : ℕ
  capP : ℝ
  capQmin : ℝ
  capQmax : ℝ
  onP : ℝ
  onQmin : ℝ
  onQmax : ℝ
  genP : ℝ
  genQ : ℝ
  loadP : ℝ
  loadQ : ℝ
  fixedP : ℝ
  fixedQ : ℝ
  dispP : ℝ
  dispMax : ℝ
  dispQ : ℝ
  shuntP : ℝ
  shuntQ : ℝ
  lossP : ℝ
  lossQ : ℝ
  chg : ℝ
  tieP : ℝ
  tieQ : ℝ
  minVm : Option (ℝ × BusRow BusD)
  maxVm : Option (ℝ × BusRow BusD)
  minVa : Option (ℝ × BusRow BusD)
  maxVa : Option (ℝ × BusRow BusD)
  maxLossP : Option (ℝ × Ends)
  maxLossQ : Option (ℝ × Ends)
  minLamP : Option (ℝ × BusRow BusD)
  maxLamP : Option (ℝ × BusRow BusD)
  minLamQ : Option (ℝ × BusRow BusD)
  maxLamQ : Option (ℝ × BusRow BusD)

/-- Branches between different areas (printpf.py:144-146). -/
def tieOf (es : List Ends) : List Ends := es.filter fun e => areaOf area e.f != areaOf area e.t

/-- printpf.py:187-236. -/
def sysSum (dc isOPF : Bool) (base : ℝ) (t : Index.Case Tables) (es : List Ends) (areas : List ℤ) : Option Sys :=
  if dc = false ∧ es = [] then none else some {
    buses := t.bus.length
    gens := (allg t).length
    committed := (ong t).length
    loads := (nzld t).length + (onld t).length
    fixed := (nzld t).length
    disp := (onld t).length
    shunts := (nzsh t).length
    branches := t.branch.length
    xfmrs := (t.branch.filter fun l => decide (l.data.tap ≠ 0)).length
    ties := (tieOf area es).length
    areas := areas.length
    capP := total (·.data.PMAX) (allg t)
    capQmin := total (·.data.QMIN) (allg t)
    capQmax := total (·.data.QMAX) (allg t)
    onP := total (·.data.PMAX) (ong t)
    onQmin := total (·.data.QMIN) (ong t)
    onQmax := total (·.data.QMAX) (ong t)
    genP := total (·.data.PG) (ong t)
    genQ := total (·.data.QG) (ong t)
    loadP := total (·.data.PD) (nzld t) - total (·.data.PG) (onld t)
    loadQ := total (·.data.QD) (nzld t) - total (·.data.QG) (onld t)
    fixedP := total (·.data.PD) (nzld t)
    fixedQ := total (·.data.QD) (nzld t)
    dispP := -total (·.data.PG) (onld t)
    dispMax := -total (·.data.PMIN) (onld t)
    dispQ := -total (·.data.QG) (onld t)
    shuntP := -total (fun b => b.data.VM ^ 2 * b.data.GS) (nzsh t)
    shuntQ := total (fun b => b.data.VM ^ 2 * b.data.BS) (nzsh t)
    lossP := total (fun e => (loss dc base e).re) es
    lossQ := total (fun e => (loss dc base e).im) es
    chg := total (fchg base) es + total (tchg base) es
    tieP := total (fun e => |e.l.data.PF - e.l.data.PT|) (tieOf area es) / 2
    tieQ := total (fun e => |e.l.data.QF - e.l.data.QT|) (tieOf area es) / 2
    minVm := minRow (·.data.VM) t.bus
    maxVm := maxRow (·.data.VM) t.bus
    minVa := minRow (·.data.VA) t.bus
    maxVa := maxRow (·.data.VA) t.bus
    maxLossP := if dc then none else maxRow (fun e => (loss dc base e).re) es
    maxLossQ := if dc then none else maxRow (fun e => (loss dc base e).im) es
    minLamP := if isOPF then minRow (·.data.LAM_P) t.bus else none
    maxLamP := if isOPF then maxRow (·.data.LAM_P) t.bus else none
    minLamQ := if isOPF then minRow (·.data.LAM_Q) t.bus else none
    maxLamQ := if isOPF then maxRow (·.data.LAM_Q) t.bus else none }

/-- The numbers of one line in each of the four tables of the area summary (printpf.py:245-263, 273-280, 292-302, 316-329).  The `Tot` lines
repeat figures of the system summary. -/
structure AreaSum where
  num : ℤ
  buses : ℕ
  gens : ℕ
  online : ℕ
  fixed : ℕ
  disp : ℕ
  shunts : ℕ
  branches : ℕ
  xfmrs : ℕ
  ties : ℕ
  capP : ℝ
  capQmin : ℝ
  capQmax : ℝ
  onP : ℝ
  onQmin : ℝ
  onQmax : ℝ
  genP : ℝ
  genQ : ℝ
  dispMax : ℝ
  dispMaxQ : ℝ
  dispP : ℝ
  dispQ : ℝ
  fixedP : ℝ
  fixedQ : ℝ
  loadP : ℝ
  loadQ : ℝ
  shuntP : ℝ
  shuntQ : ℝ
  chg : ℝ
  lossP : ℝ
  lossQ : ℝ
  exportP : ℝ
  exportQ : ℝ

/-- `Qlim` (printpf.py:290). -/
def qlim (g : GenD) : ℝ := (if g.QMIN = 0 then g.QMAX else 0) + (if g.QMAX = 0 then g.QMIN else 0)

/-- One area. -/
def areaSum (dc : Bool) (base : ℝ) (t : Index.Case Tables) (es : List Ends) (gs : List (GenRow GenD × BusRow BusD)) (a : ℤ) : AreaSum :=
  let ar := areaOf area
  let ig := gs.filter fun g => ar g.2 == a && !isload g.1
  let igon := gs.filter fun g => ar g.2 == a && decide (0 < g.1.status) && !isload g.1
  let ildon := gs.filter fun g => ar g.2 == a && decide (0 < g.1.status) && isload g.1
  let inzld := (nzld t).filter fun b => ar b == a
  let inzsh := (nzsh t).filter fun b => ar b == a
  let brchs := es.filter fun e => ar e.f == a && ar e.t == a
  let ties := es.filter fun e => (ar e.f == a && ar e.t != a) || (ar e.f != a && ar e.t == a)
  let ibrch := es.filter fun e => ar e.f == a && ar e.t == a && e.l.status != 0
  let inTie := es.filter fun e => ar e.f != a && ar e.t == a && e.l.status != 0
  let outTie := es.filter fun e => ar e.f == a && ar e.t != a && e.l.status != 0
  { num := a
    buses := (t.bus.filter fun b => ar b == a).length
    gens := ig.length
    online := igon.length
    fixed := inzld.length
    disp := ildon.length
    shunts := inzsh.length
    branches := brchs.length
    xfmrs := (brchs.filter fun e => decide (e.l.data.tap ≠ 0)).length
    ties := ties.length
    capP := total (·.1.data.PMAX) ig
    capQmin := total (·.1.data.QMIN) ig
    capQmax := total (·.1.data.QMAX) ig
    onP := total (·.1.data.PMAX) igon
    onQmin := total (·.1.data.QMIN) igon
    onQmax := total (·.1.data.QMAX) igon
    genP := total (·.1.data.PG) igon
    genQ := total (·.1.data.QG) igon
    dispMax := -total (·.1.data.PMIN) ildon
    dispMaxQ := -total (fun g => qlim g.1.data) ildon
    dispP := -total (·.1.data.PG) ildon
    dispQ := -total (·.1.data.QG) ildon
    fixedP := total (·.data.PD) inzld
    fixedQ := total (·.data.QD) inzld
    loadP := -total (·.1.data.PG) ildon + total (·.data.PD) inzld
    loadQ := -total (·.1.data.QG) ildon + total (·.data.QD) inzld
    shuntP := -total (fun b => b.data.VM ^ 2 * b.data.GS) inzsh
    shuntQ := total (fun b => b.data.VM ^ 2 * b.data.BS) inzsh
    chg := total (fchg base) ibrch + total (tchg base) ibrch + total (fchg base) outTie + total (tchg base) inTie
    lossP := total (fun e => (loss dc base e).re) ibrch + total (fun e => (loss dc base e).re) (inTie ++ outTie) / 2
    lossQ := total (fun e => (loss dc base e).im) ibrch + total (fun e => (loss dc base e).im) (inTie ++ outTie) / 2
    exportP := total (·.l.data.PT) inTie + total (·.l.data.PF) outTie - total (fun e => (loss dc base e).re) (inTie ++ outTie) / 2
    exportQ := total (·.l.data.QT) inTie + total (·.l.data.QF) outTie - total (fun e => (loss dc base e).im) (inTie ++ outTie) / 2 }

/-- A line of the table of generators (dispatchable loads) (printpf.py:335-386): row number, bus, output (`none`: a dash; `sign` is −1 for loads), prices at its bus after an OPF. -/
structure GenLine where
  row : ℕ
  bus : ℕ
  out : Option (ℝ × ℝ)
  price : Option (ℝ × ℝ)

/-- The lines for the rows that pass the test, in the order of the table (printpf.py:352-361, 374-384); `gs` holds the rows with
the prices `bus[e2i[gen[:, GEN_BUS]], [LAM_P, LAM_Q]]` (printpf.py:338-340). -/
def genLines (sel : GenRow GenD → Bool) (sign : ℝ) (gs : List (GenRow GenD × Option (ℝ × ℝ))) : List GenLine :=
  (gs.zipIdx.filter fun x => sel x.1.1).map fun x =>
    ⟨x.2, x.1.1.bus, if 0 < x.1.1.status ∧ (x.1.1.data.PG ≠ 0 ∨ x.1.1.data.QG ≠ 0) then some (sign * x.1.1.data.PG, sign * x.1.1.data.QG) else none,
      x.1.2⟩

/-- A line of the bus table (printpf.py:399-427): generation (`none`: a dash), load. -/
structure BusLine where
  num : ℕ
  gen : Option (ℝ × ℝ)
  load : Option (ℝ × ℝ)

/-- printpf.py:405-421. -/
def busLine (t : Index.Case Tables) (b : BusRow BusD) : BusLine :=
  let g := (ong t).filter fun g => g.bus == b.num
  let ld := (onld t).filter fun g => g.bus == b.num
  { num := b.num
    gen := if g = [] then none else some (total (·.data.PG) g, total (·.data.QG) g)
    load := if (b.data.PD ≠ 0 ∨ b.data.QD ≠ 0) ∨ ld ≠ [] then some (b.data.PD - total (·.data.PG) ld, b.data.QD - total (·.data.QG) ld) else none }

/-- Tolerance for shadow prices (printpf.py:125). -/
def ptol : ℝ := 1e-4

/-- Binding tests (printpf.py:469-472, 489-492, 494-497, 655-658); `ff`, `ft` are the flows compared with the limit (printpf.py:641-651). -/
def vBinding (ctol : ℝ) (b : BusRow BusD) : Bool :=
  decide (b.data.VM < b.data.VMIN + ctol) || decide (b.data.VM > b.data.VMAX - ctol) || decide (b.data.MU_VMIN > ptol) || decide (b.data.MU_VMAX > ptol)
def pBinding (ctol : ℝ) (g : GenRow GenD) : Bool :=
  decide (g.data.PG < g.data.PMIN + ctol) || decide (g.data.PG > g.data.PMAX - ctol) || decide (g.data.MU_PMIN > ptol) || decide (g.data.MU_PMAX > ptol)
def qBinding (ctol : ℝ) (g : GenRow GenD) : Bool :=
  decide (g.data.QG < g.data.QMIN + ctol) || decide (g.data.QG > g.data.QMAX - ctol) || decide (g.data.MU_QMIN > ptol) || decide (g.data.MU_QMAX > ptol)
def ff (o : PrintOpt) (e : Ends) : ℝ :=
  if o.OPF_FLOW_LIM = 1 ∨ o.PF_DC then e.l.data.PF
  else if o.OPF_FLOW_LIM = 2 then ‖((e.l.data.PF : ℂ) + Complex.I * e.l.data.QF) / volt e.f‖ else ‖(e.l.data.PF : ℂ) + Complex.I * e.l.data.QF‖
def ft (o : PrintOpt) (e : Ends) : ℝ :=
  if o.OPF_FLOW_LIM = 1 ∨ o.PF_DC then e.l.data.PT
  else if o.OPF_FLOW_LIM = 2 then ‖((e.l.data.PT : ℂ) + Complex.I * e.l.data.QT) / volt e.t‖ else ‖(e.l.data.PT : ℂ) + Complex.I * e.l.data.QT‖
def lBinding (o : PrintOpt) (e : Ends) : Bool :=
  (decide (e.l.data.rateA ≠ 0) && decide (|ff o e| > e.l.data.rateA - o.OPF_VIOLATION)) ||
  (decide (e.l.data.rateA ≠ 0) && decide (|ft o e| > e.l.data.rateA - o.OPF_VIOLATION)) ||
  decide (e.l.data.MU_SF > ptol) || decide (e.l.data.MU_ST > ptol)

/-- The rows listed in a section: those that pass the row test, if the section is printed at all (e.g. printpf.py:502-515). -/
def listed {α : Type} (lim : ℕ) (binding : α → Bool) (rows : List α) : List α :=
  if lim == 2 || (lim == 1 && rows.any binding) then rows.filter fun x => lim == 2 || (lim == 1 && binding x) else []

/-- The condition of the voltage section (printpf.py:457-461).  `|` and `&` bind more tightly than `==`, so it is read as
`OUT_V_LIM == (2 | (OUT_V_LIM == (1 & any(...))))`. -/
def vHeader (lim : ℕ) (anyBinding : Bool) : Bool := lim == (2 ||| (lim == (1 &&& anyBinding.toNat)).toNat)

/-- printpf.py:457-485; the row test (printpf.py:468) is `(OUT_V_LIM == 2) | (OUT_V_LIM == (1 & binding))`. -/
def vListed (lim : ℕ) (ctol : ℝ) (rows : List (BusRow BusD)) : List (BusRow BusD) :=
  if vHeader lim (rows.any (vBinding ctol)) then rows.filter fun b => lim == 2 || lim == (1 &&& (vBinding ctol b).toNat) else []

/-- What is printed: system summary, area summary, generators and dispatchable loads, bus table, losses in the branch table, the constraint sections. -/
structure Report where
  sys : Option Sys
  areas : Option (List AreaSum)
  gens : Option (List GenLine × List GenLine)
  buses : Option (List BusLine)
  losses : Option (List ℂ)
  vLims : List (BusRow BusD)
  pgLims : List (GenRow GenD)
  qgLims : List (GenRow GenD)
  lineLims : List Ends

/-- A line of the dispatchable load section raises: `'%10.2f%10.2f%10.2f' % gen[i, [PMIN, PG, PMAX]]` formats an array, not a tuple (printpf.py:597, 599), and `gen(i, GEN_BUS)`
calls an array (printpf.py:623). -/
def loadLines (o : PrintOpt) (t : Index.Case Tables) : Option Unit :=
  if listed (o.lim (·.OUT_PG_LIM)) (pBinding o.OPF_VIOLATION) (onld t) = [] ∧
      (o.PF_DC = true ∨ listed (o.lim (·.OUT_QG_LIM)) (qBinding o.OPF_VIOLATION) (onld t) = []) then some () else none

/-- The section of generators and that of dispatchable loads (printpf.py:338-389).  Without an OPF the bus rows are not looked up. -/
def genTable (isOPF : Bool) (t : Index.Case Tables) : Option (List GenLine × List GenLine) :=
  (if isOPF then (genRows t).map fun r => r.map fun x => (x.1, some (x.2.data.LAM_P, x.2.data.LAM_Q)) else some (t.gen.map fun g => (g, none))).map fun gs =>
    (genLines (fun g => decide (0 < g.status) && !isload g) 1 gs, genLines (fun g => decide (0 < g.status) && isload g) (-1) gs)

/-- `if flag: ...`. -/
def part {α : Type} (flag : Bool) (x : Option α) : Option (Option α) := if flag then x.map some else some none

/-- `printpf(results, fd, ppopt)`: the tables of `results` afterwards, and what was printed.  `isOPF`: `results` has a key `f`. -/
def printpf (o : PrintOpt) (isOPF : Bool) (base : ℝ) (t : Index.Case Tables) : Option (Index.Case Tables × Option Report) :=
  if o.OUT_ALL = 0 then some (t, none) else do
    let t := if o.PF_DC then dcZero t else t
    let es ← ends t
    let areas ← sAreas area t
    let sys ← part (o.flag (·.OUT_SYS_SUM)) (sysSum area o.PF_DC isOPF base t es areas)
    let ars ← part (o.flag (·.OUT_AREA_SUM)) ((genRows t).map fun gs => areas.map (areaSum area o.PF_DC base t es gs))
    let gls ← part (o.flag (·.OUT_GEN)) (genTable isOPF t)
    let _ ← part isOPF (loadLines o t)
    some (t, some {
      sys := sys
      areas := ars
      gens := gls
      buses := if o.flag (·.OUT_BUS) then some (t.bus.map (busLine t)) else none
      losses := if o.flag (·.OUT_BRANCH) then some (es.map (loss o.PF_DC base)) else none
      vLims := if isOPF && !o.PF_DC then vListed (o.lim (·.OUT_V_LIM)) o.OPF_VIOLATION t.bus else []
      pgLims := if isOPF then listed (o.lim (·.OUT_PG_LIM)) (pBinding o.OPF_VIOLATION) (ong t) else []
      qgLims := if isOPF && !o.PF_DC then listed (o.lim (·.OUT_QG_LIM)) (qBinding o.OPF_VIOLATION) (ong t) else []
      lineLims := if isOPF then listed (o.lim (·.OUT_LINE_LIM)) (lBinding o) es else [] })

/-- `runpf` with `PF_DC` including the printing of its results (runpf.py:305-322: same arrays). -/
def runpfDcShown (o : PrintOpt) (srt : List ℕ → List ℕ) (base : ℝ) (lib : Runpf.DcLib) (c : Index.Case Tables) : Option (Bool × Index.Case Tables × Option Report) := do
  let r ← Runpf.runpfDc srt base lib c
  let t ← r.tables
  let p ← printpf area { o with PF_DC := true } false base t
  some (r.success, p)

/-- `runpf` with the AC formulation including the printing of its results (results with finite numbers only). -/
def runpfAcShown (o : PrintOpt) (srt : List ℕ → List ℕ) (base : ℝ) (po : Runpf.PfOpt) (lib : Runpf.PfLib) (c : Index.Case Tables) :
    Option (Bool × Index.Case Tables × Option Report) := do
  let r ← Runpf.runpfAc srt base po lib c
  let t ← r.tables
  let p ← printpf area { o with PF_DC := false } false base t
  some (r.success, p)

/-- `runopf` (runopf.py:31-52): DC and AC formulation. -/
def runopfDc (o : PrintOpt) (srt : List ℕ → List ℕ) (base : ℝ) (S : Opf.DcSetup) (po : Pips.Opt) (solve : Opf.AnySolver) (c : Index.Case Tables) :
    Option (Opf.Ret × Option Report) := do
  let r ← Opf.opfDc srt base S po solve c
  let p ← printpf area { o with PF_DC := true } true base r.tables
  some ({ r with tables := p.1 }, p.2)
def runopfAc (o : PrintOpt) (srt : List ℕ → List ℕ) (base : ℝ) (S : Opf.AcSetup) (po : Pips.Opt) (solve : Opf.AnySolver) (c : Index.Case Tables) :
    Option (Opf.Ret × Option Report) := do
  let r ← Opf.opfAc srt base o.OPF_FLOW_LIM S po solve c
  let p ← printpf area { o with PF_DC := false } true base r.tables
  some ({ r with tables := p.1 }, p.2)

end

end Verif.Printpf
