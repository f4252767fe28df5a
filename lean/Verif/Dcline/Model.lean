import Verif.Constr.Model

/-!
# DC lines as pairs of generators

Model of `toggle_dcline.py`: `userfcn_dcline_ext2int` (96-234), `userfcn_dcline_formulation` (238-277) and
`userfcn_dcline_int2ext` (281-338).

Tables are float arrays, so bus numbers are float columns. `userfcn_dcline_ext2int` uses such columns as indices (lines 132-133,
184-185); numpy before 1.12 accepts that, later versions raise `IndexError`: this is the parameter `floatIndex`. The converted
bus numbers are always valid (`e2i` is a function). `none` is an exception. Numbers are real, the missing limits extended reals.
-/

open Verif.NumPy

namespace Verif.Dcline

noncomputable section

/-- A row of `dcline` (idx_dcline.py, columns 0-16). -/
structure DcLine where
  fbus : Nat
  tbus : Nat
  status : ℝ
  pf : ℝ
  pt : ℝ
  qf : ℝ
  qt : ℝ
  vf : ℝ
  vt : ℝ
  pmin : ℝ
  pmax : ℝ
  qminf : ℝ
  qmaxf : ℝ
  qmint : ℝ
  qmaxt : ℝ
  loss0 : ℝ
  loss1 : ℝ

/-- A row of `gen`: the columns used here; all other columns of the dummy generators are zero. -/
structure Gen where
  bus : Nat
  pg : ℝ
  qg : ℝ
  qmax : ℝ
  qmin : ℝ
  vg : ℝ
  mbase : ℝ
  status : ℝ
  pmax : EReal
  pmin : EReal
  muPmax : ℝ
  muPmin : ℝ
  muQmax : ℝ
  muQmin : ℝ

/-- toggle_dcline.py:119. -/
def isOn (d : DcLine) : Bool := @decide (0 < d.status) (Classical.dec _)

/-- toggle_dcline.py:132-133,139: internal bus numbers, consistent `PT`. -/
def convert (e2i : Nat → Nat) (d : DcLine) : DcLine :=
  { d with fbus := e2i d.fbus, tbus := e2i d.tbus, pt := d.pf - (d.loss0 + d.loss1 * d.pf) }

/-- `isload` (isload.py:10-21). -/
def isload (g : Gen) : Bool := @decide (g.pmin < 0 ∧ g.pmax = 0) (Classical.dec _)

/-- toggle_dcline.py:179-180. -/
def fudge (g : Gen) : Gen := if isload g then { g with pmax := ((-(1 / 1000000) : ℝ) : EReal) } else g

/-- toggle_dcline.py:142-146. -/
def blank (d : DcLine) : Gen := ⟨0, 0, 0, 0, 0, 0, 100, d.status, ⊤, ⊥, 0, 0, 0, 0⟩

/-- The generator at the from bus (toggle_dcline.py:148-162,172-173,179). -/
def fromGen (d : DcLine) : Gen :=
  fudge { blank d with
    bus := d.fbus, pg := -d.pf, qg := d.qf, vg := d.vf
    pmax := if @decide (0 ≤ d.pmin) (Classical.dec _) then ((-d.pmin : ℝ) : EReal) else ⊤
    pmin := if @decide (0 ≤ d.pmax) (Classical.dec _) then ((-d.pmax : ℝ) : EReal) else ⊥
    qmin := d.qminf, qmax := d.qmaxf }

/-- The generator at the to bus (toggle_dcline.py:149-155,164-170,174-175,180). -/
def toGen (d : DcLine) : Gen :=
  fudge { blank d with
    bus := d.tbus, pg := d.pt, qg := d.qt, vg := d.vt
    pmin := if @decide (d.pmin < 0) (Classical.dec _) then ((d.pmin : ℝ) : EReal) else ⊥
    pmax := if @decide (d.pmax < 0) (Classical.dec _) then ((d.pmax : ℝ) : EReal) else ⊤
    qmin := d.qmint, qmax := d.qmaxt }

/-- Bus types of the code. -/
inductive BusType | pq | pv | ref | none
deriving DecidableEq

/-- toggle_dcline.py:182-186 for bus `i`. -/
def newType (dc : List DcLine) (i : Nat) (t : BusType) : BusType :=
  if t = .ref then .ref else if (dc.any fun d => decide (d.fbus = i) || decide (d.tbus = i)) then .pv else t

/-- A cost row as a list of numbers; toggle_dcline.py:231: the zero cost row with `n` columns. -/
def zeroCost (n : Nat) : List ℝ := [2, 0, 0, 2] ++ List.replicate (n - 4) 0

/-- toggle_dcline.py:191-232 (gencost present if `some`): with costs for DC lines (`havecost`) and at least one line in service the
conversion raises (line 205 or 213: `NCOST + range(..)`); with no line in service line 227 raises as well with recent numpy (a
ragged list), which is taken as raising here. -/
def newCost (havecost : Bool) (ndc : Nat) : Option (List (List ℝ)) → Option (Option (List (List ℝ)))
  | none => some none
  | some [] => some (some [])
  | some (r :: gc) =>
    if havecost then none
    else if r.length < 4 then none
    else some (some (r :: gc ++ List.replicate (2 * ndc) (zeroCost r.length)))

/-- Result of `userfcn_dcline_ext2int`: the changed fields of `ppc`; `ext` is `ppc['order']['ext']['dcline']`. -/
structure Internal where
  ext : List DcLine
  dcline : List DcLine
  bus : List BusType
  gen : List Gen
  gencost : Option (List (List ℝ))

/-- `userfcn_dcline_ext2int` (toggle_dcline.py:96-234); `bus` is the column BUS_TYPE. -/
def ext2int (floatIndex havecost : Bool) (e2i : Nat → Nat) (dcline : List DcLine) (bus : List BusType) (gen : List Gen)
    (gencost : Option (List (List ℝ))) : Option Internal :=
  if floatIndex then do
    let on ← gather dcline (find (dcline.map isOn))
    let dc := on.map (convert e2i)
    let gc ← newCost havecost dc.length gencost
    pure {
      ext := dcline
      dcline := dc
      bus := bus.zipIdx.map fun p => newType dc p.2 p.1
      gen := gen ++ dc.map fromGen ++ dc.map toGen
      gencost := gc }
  else none

/-- `userfcn_dcline_formulation` (toggle_dcline.py:238-277): the constraint on `Pg` (p.u.); `ngen` is the number of rows of `gen`
with the dummy generators. -/
def formulation (baseMVA : ℝ) (dc : List DcLine) (ngen : Nat) : Constr.Lin :=
  let ndc := dc.length
  let ng := ngen - 2 * ndc
  let nL0 := dc.map fun d => -d.loss0 / baseMVA
  ⟨ndc, Constr.twoBlocks ndc ((List.range ndc).map (ng + ·)) ((List.range ndc).map (ng + ndc + ·))
      (dc.map fun d => 1 - d.loss1) (List.replicate ndc 1),
    nL0.map fun v : ℝ => (v : EReal), nL0.map fun v : ℝ => (v : EReal), List.range ndc⟩

/-- toggle_dcline.py:311-316: solved flows of an in-service line. -/
def solved (d : DcLine) (fg tg : Gen) : DcLine :=
  { d with pf := -fg.pg, pt := tg.pg, qf := fg.qg, qt := tg.qg, vf := fg.vg, vt := tg.vg }

/-- Multiplier columns 17-22 of `dcline`. -/
structure Mu where
  pmin : ℝ
  pmax : ℝ
  qminf : ℝ
  qmaxf : ℝ
  qmint : ℝ
  qmaxt : ℝ

/-- toggle_dcline.py:319-324. -/
def mults (fg tg : Gen) : Mu :=
  ⟨fg.muPmax + tg.muPmin, fg.muPmin + tg.muPmax, fg.muQmin, fg.muQmax, tg.muQmin, tg.muQmax⟩

/-- toggle_dcline.py:330: columns PF..VT. -/
def copyFlows (dest src : DcLine) : DcLine :=
  { dest with pf := src.pf, pt := src.pt, qf := src.qf, qt := src.qt, vf := src.vf, vt := src.vt }

/-- The columns of `dcline` that `int2ext` returns besides 0-16. -/
structure Results where
  gen : List Gen
  gencost : List (List ℝ)
  dcline : List DcLine
  mu : Option (List Mu)

/-- toggle_dcline.py:331-334 for a table of 17 columns: the multipliers are copied to the external table only if its number of rows
is that of the lines in service (otherwise `c_` raises). `width` is the number of columns of the internal table. -/
def extMu (width nExt : Nat) (k : List Nat) (mu : List Mu) : Option (Option (List Mu)) :=
  if width = 23 then
    if nExt = k.length then (scatter (List.replicate nExt ⟨0, 0, 0, 0, 0, 0⟩) k mu).map some else none
  else some none

/-- `userfcn_dcline_int2ext` (toggle_dcline.py:281-338) for a `dcline` table of 17 columns. `ngc` is the number of columns of `gen`;
`ext`, `dc` are the external and internal `dcline` tables, `gen` the solved generators with the dummies. An internal table whose
number of rows differs from the number of non-zero statuses raises at line 311 (simplification: also if one of the two is 1, where
numpy would broadcast), so does a table with fewer than `2*ndc` generators (simplification: negative slices). A
missing `gencost` raises `KeyError` at line 308. -/
def int2ext (ngc : Nat) (ext dc : List DcLine) (gen : List Gen) (gencost : Option (List (List ℝ))) : Option Results := do
  let gc ← gencost
  let k := find (ext.map fun d => @decide (d.status ≠ 0) (Classical.dec _))
  let ndc := k.length
  if gen.length < 2 * ndc ∨ dc.length ≠ ndc ∨ ngc = 24 then none
  else do
    let ng := gen.length - 2 * ndc
    let fg := (gen.drop ng).take ndc
    let tg := (gen.drop (ng + ndc)).take ndc
    let flows := List.zipWith (fun d p => solved d p.1 p.2) dc (fg.zip tg)
    let rows ← gather ext k
    let ext' ← scatter ext k (List.zipWith copyFlows rows flows)
    let mu ← extMu (if 24 ≤ ngc then 23 else 17) ext.length k (List.zipWith mults fg tg)
    pure ⟨gen.take ng, gc.take ng, ext', mu⟩

end

end Verif.Dcline
