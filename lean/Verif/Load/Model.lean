import Mathlib.Data.Real.Basic
import Mathlib.Algebra.Order.Archimedean.Real.Basic
import Mathlib.Algebra.BigOperators.Fin
import Mathlib.Algebra.Order.Floor.Ring

/-!
# Model of total_load and scale_load (pypower/total_load.py, pypower/scale_load.py, pypower/isload.py)

Tables are functions on `Fin nb`, `Fin ng`.  Only the columns these functions read or write are kept.
-/

namespace Verif.Load

/-- A row of `bus`: number, area, fixed demand. -/
structure LBus where
  num : Nat
  area : Nat
  pd : ℝ
  qd : ℝ

/-- A row of `gen`: bus, outputs, limits; `on` is `GEN_STATUS > 0`. -/
structure LGen where
  bus : Nat
  pg : ℝ
  qg : ℝ
  qmax : ℝ
  qmin : ℝ
  on : Bool
  pmax : ℝ
  pmin : ℝ

/-- First letter of `which_type` (total_load.py:66-72): 'F', 'D', 'B' or another letter (only a message is written). -/
inductive Which
  | fixed
  | disp
  | both
  | other
deriving DecidableEq

noncomputable section

variable {nb ng : Nat}

/-- `isload(gen)` (isload.py:11-20). -/
def isload (g : LGen) : Bool := decide (g.pmin < 0) && decide (g.pmax = 0)

/-- `is_ld = isload(gen) & (gen[:, GEN_STATUS] > 0)` (total_load.py:94, scale_load.py:104). -/
def isLd (g : LGen) : Bool := isload g && g.on

/-- `e2i[n]` where `e2i = zeros(max(i2e) + 1); e2i[i2e] = arange(nb)` (total_load.py:98-100, scale_load.py:108-110): the last bus with
number `n`; 0 for a number that does not occur but is not larger than the largest one; `IndexError` above that. -/
def e2i (bus : Fin nb → LBus) (n : Nat) : Option (Fin nb) :=
  match (List.finRange nb).reverse.find? (fun i => decide ((bus i).num = n)) with
  | some i => some i
  | none => if ∃ i, n ≤ (bus i).num then (List.finRange nb).head? else none

/-- Bus positions of all generators, `e2i[gbus]` (total_load.py:102-103, scale_load.py:112-113). -/
def genPos (bus : Fin nb → LBus) (gen : Fin ng → LGen) : Option (Fin ng → Fin nb) :=
  if h : ∀ g, (e2i bus (gen g).bus).isSome then some (fun g => (e2i bus (gen g).bus).get (h g)) else none

/-- `(-Cld * F)[i]` (total_load.py:103-109, scale_load.py:113, 138). -/
def minusCld (gen : Fin ng → LGen) (pos : Fin ng → Fin nb) (F : LGen → ℝ) (i : Fin nb) : ℝ :=
  ∑ g, (-(if pos g = i then (if isLd (gen g) then 1 else 0) else 0)) * F (gen g)

/-- `Q` (total_load.py:106-108). -/
def loadQ (g : LGen) : ℝ :=
  if isLd g then (if g.qmin = 0 then 1 else 0) * g.qmax + (if g.qmax = 0 then 1 else 0) * g.qmin else 0

/-- The `load_zone` argument of `total_load`: `'all'`, a vector, or nothing (total_load.py:60-61, 75-78).
Simplification: a given vector has one entry per bus. -/
inductive ZoneArg (nb : Nat)
  | all
  | given (z : Fin nb → Nat)
  | areas

/-- total_load.py:75-78. -/
def zoneOf (bus : Fin nb → LBus) : ZoneArg nb → Fin nb → Nat
  | .all => fun _ => 1
  | .given z => z
  | .areas => fun i => (bus i).area

/-- total_load.py:62-67: the selection that is used. -/
def whichOf (ng : Nat) (w : Option Which) : Which := if ng = 0 then .fixed else w.getD .both

/-- `total_load(bus, gen, load_zone, which_type)` (total_load.py:25-130).  `none` models an exception.
`negOk`: negating a boolean sparse matrix (`-Cld`, lines 104 and 109) works, as it does in old versions of scipy, which store the
matrix with integer entries; newer versions raise `NotImplementedError`. -/
def totalLoad (negOk : Bool) (bus : Fin nb → LBus) (gen : Fin ng → LGen) (z : ZoneArg nb) (w : Option Which) :
    Option (List ℝ × List ℝ) :=
  let w := whichOf ng w
  let wantF := w = .both ∨ w = .fixed
  let wantD := w = .both ∨ w = .disp
  let zone := zoneOf bus z
  if nb = 0 then none else
  let nz := Finset.univ.sup zone
  let pdf : Fin nb → ℝ := fun i => if wantF then (bus i).pd else 0
  let qdf : Fin nb → ℝ := fun i => if wantF then (bus i).qd else 0
  let sums := fun pdd qdd : Fin nb → ℝ =>
    ((List.range nz).map (fun k => ∑ i with zone i = k + 1, pdf i + ∑ i with zone i = k + 1, pdd i),
     (List.range nz).map (fun k => ∑ i with zone i = k + 1, qdf i + ∑ i with zone i = k + 1, qdd i))
  if wantD then
    match genPos bus gen with
    | none => none
    | some pos => if negOk then some (sums (minusCld gen pos (·.pmin)) (minusCld gen pos loadQ)) else none
  else some (sums (fun _ => 0) (fun _ => 0))

/-! ## scale_load -/

/-- Exceptions of `scale_load`: its own `ScalingError` or another one. -/
inductive Err
  | scaling
  | other
deriving DecidableEq

/-- dtype of the `load` array: assignments into its copy `scale` (scale_load.py:133, 148-165) truncate for integers. -/
inductive LoadKind
  | float
  | int
deriving DecidableEq

/-- Value stored by `scale[k] = v`. -/
def store : LoadKind → ℝ → ℝ
  | .float, v => v
  | .int, v => if 0 ≤ v then (⌊v⌋ : ℝ) else (⌈v⌉ : ℝ)

/-- Options (scale_load.py:84-99): `which`, whether `pq` is `'PQ'`, whether `scale` starts with `'Q'`. -/
structure ScaleOpt where
  which : Which
  pq : Bool
  quantity : Bool

/-- scale_load.py:118-126: default zones.  With one load value the expression `bus[:, PD] != 0 or bus[:, QD] != 0` raises `ValueError` as
soon as there are two buses. -/
def defaultZone (n : Nat) (bus : Fin nb → LBus) (gen : Fin ng → LGen) (pos : Fin ng → Fin nb) : Except Err (Fin nb → Nat) :=
  if n = 1 then
    if 2 ≤ nb then .error .other
    else .ok fun i => if (bus i).pd ≠ 0 ∨ (bus i).qd ≠ 0 ∨ ∃ g, isLd (gen g) = true ∧ pos g = i then 1 else 0
  else .ok fun i => (bus i).area

/-- scale_load.py:118: the given zones, or the default ones. -/
def zonesFor (z : Option (Fin nb → Nat)) (n : Nat) (bus : Fin nb → LBus) (gen : Fin ng → LGen) (pos : Fin ng → Fin nb) :
    Except Err (Fin nb → Nat) :=
  match z with
  | some z => .ok z
  | none => defaultZone n bus gen pos

/-- scale_load.py:141-166: the factor of zone `k` (`k` counted from 0) for the target `t`. -/
def quantityFactor (kind : LoadKind) (which : Which) (fixed disp t old : ℝ) : Except Err ℝ :=
  match which with
  | .both => if fixed + disp ≠ 0 then .ok (store kind (t / (fixed + disp))) else if t = fixed + disp then .ok 1 else .error .scaling
  | .fixed => if fixed ≠ 0 then .ok (store kind ((t - disp) / fixed)) else if t = disp then .ok 1 else .error .scaling
  | .disp => if disp ≠ 0 then .ok (store kind ((t - fixed) / disp)) else if t = fixed then .ok 1 else .error .scaling
  | .other => .ok old

/-- scale_load.py:133-166: the vector `scale`. -/
def factors (kind : LoadKind) (o : ScaleOpt) (load : List ℝ) (bus : Fin nb → LBus) (zone : Fin nb → Nat) (pdd : Fin nb → ℝ) :
    Except Err (List ℝ) :=
  if o.quantity then
    (List.range load.length).mapM fun k =>
      quantityFactor kind o.which (∑ i with zone i = k + 1, (bus i).pd) (∑ i with zone i = k + 1, pdd i) (load.getD k 0) (load.getD k 0)
  else .ok load

/-- scale_load.py:170-175: one pass of the loop over the zones, fixed loads. -/
def busStep (pq : Bool) (scale : List ℝ) (zone : Fin nb → Nat) (bus : Fin nb → LBus) (k : Nat) : Fin nb → LBus := fun i =>
  if zone i = k + 1 then
    ⟨(bus i).num, (bus i).area, (bus i).pd * scale.getD k 0, if pq then (bus i).qd * scale.getD k 0 else (bus i).qd⟩
  else bus i

/-- scale_load.py:178-187: one pass of the loop over the zones, dispatchable loads (`ld` was computed before any scaling). -/
def genStep (pq : Bool) (scale : List ℝ) (zone : Fin nb → Nat) (ld : Fin ng → Bool) (pos : Fin ng → Fin nb) (gen : Fin ng → LGen) (k : Nat) :
    Fin ng → LGen := fun g =>
  if ld g = true ∧ zone (pos g) = k + 1 then
    let x := gen g
    let s := scale.getD k 0
    if pq then ⟨x.bus, x.pg * s, x.qg * s, x.qmax * s, x.qmin * s, x.on, x.pmax, x.pmin * s⟩
    else ⟨x.bus, x.pg * s, x.qg, x.qmax, x.qmin, x.on, x.pmax, x.pmin * s⟩
  else gen g

/-- scale_load.py:168-187 (for given positions and zones). -/
def applyScale (o : ScaleOpt) (scale : List ℝ) (zone : Fin nb → Nat) (pos : Fin ng → Fin nb) (bus : Fin nb → LBus) (gen : Fin ng → LGen) :
    (Fin nb → LBus) × (Fin ng → LGen) :=
  (if o.which = .disp then bus else (List.range scale.length).foldl (busStep o.pq scale zone) bus,
   if o.which = .fixed then gen else (List.range scale.length).foldl (genStep o.pq scale zone (fun g => isLd (gen g)) pos) gen)

/-- `scale_load(load, bus, gen, load_zone, opt)` (scale_load.py:21-189).  An empty `gen` forces `which = 'FIXED'` (line 86).
Side effect not modelled: defaults are written into the caller's `opt`. -/
def scaleLoad (negOk : Bool) (kind : LoadKind) (load : List ℝ) (bus : Fin nb → LBus) (gen : Fin ng → LGen) (z : Option (Fin nb → Nat))
    (o : ScaleOpt) : Except Err ((Fin nb → LBus) × (Fin ng → LGen)) :=
  let o : ScaleOpt := ⟨if ng = 0 then .fixed else o.which, o.pq, o.quantity⟩
  match genPos bus gen with
  | none => .error .other
  | some pos => do
    let zone ← zonesFor z load.length bus gen pos
    if nb = 0 then .error .other else
    if o.quantity ∧ ng ≠ 0 ∧ negOk = false then .error .other else do
      let scale ← factors kind o load bus zone (minusCld gen pos (·.pmin))
      .ok (applyScale o scale zone pos bus gen)

end

end Verif.Load
