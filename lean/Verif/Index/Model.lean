import Verif.NumPy

/-!
# Model of `ext2int.py`, `int2ext.py`, `e2i_data.py`, `i2e_data.py`, `get_reorder.py`, `set_reorder.py`

Tables are lists of records.  Only the columns that the conversion reads or writes are named; the other columns of a row
are one opaque payload (`data`), so the theorems hold for any column layout.
Exceptions are `none`.
Not modelled: callbacks registered in `ppc['userfcn']` (ext2int.py:196-197, int2ext.py:52-53 — the model is of cases without
callbacks), the deprecated multi-argument calling forms (ext2int.py:198-213, int2ext.py:111-123), the warning text
written to stderr, non-integer bus numbers.
-/

namespace Verif.Index
open Verif.NumPy

/-- Row of `ppc['bus']`: `BUS_I` (col 0), `BUS_TYPE` (col 1), the rest (idx_bus.py). -/
structure BusRow (β : Type) where
  num : Nat
  typ : Int
  data : β
deriving DecidableEq, Repr

/-- Row of `ppc['gen']`: `GEN_BUS` (col 0), `GEN_STATUS` (col 7), the rest (idx_gen.py). -/
structure GenRow (γ : Type) where
  bus : Nat
  status : Int
  data : γ
deriving DecidableEq, Repr

/-- Row of `ppc['branch']`: `F_BUS` (col 0), `T_BUS` (col 1), `BR_STATUS` (col 10), the rest (idx_brch.py). -/
structure BranchRow (δ : Type) where
  f : Nat
  t : Nat
  status : Int
  data : δ
deriving DecidableEq, Repr

/-- Row of `ppc['areas']`: `PRICE_REF_BUS` (col 1), the rest (idx_area.py). -/
structure AreaRow (ε : Type) where
  ref : Nat
  data : ε
deriving DecidableEq, Repr

/-- A user matrix (`ppc['A']` or `ppc['N']`): whether it is a scipy sparse matrix, and its columns.
The conversion only moves whole columns (ext2int.py:191,193 use `dim=1`). -/
structure UserMat (α : Type) where
  sparse : Bool
  cols : List α
deriving DecidableEq, Repr

/-- idx_bus.py: bus type code `NONE` (isolated bus). -/
def NONE : Int := 4

/-- The types of the opaque payloads of the tables of a case. -/
structure Payload where
  bus : Type
  gen : Type
  branch : Type
  area : Type
  cost : Type
  col : Type

/-- `ppc['order']` (ext2int.py:64-77): which rows are in service, the bus number maps, the generator permutation, the saved
external tables `order['ext']` and the state flag (`internal = true` is `'i'`). -/
structure Order (P : Payload) where
  internal : Bool
  /-- `order['ext']`; deleted by `int2ext` (int2ext.py:105). -/
  extBus : List (BusRow P.bus)
  extBranch : List (BranchRow P.branch)
  extGen : List (GenRow P.gen)
  extAreas : Option (List (AreaRow P.area))
  extGencost : Option (List P.cost)
  extA : Option (UserMat P.col)
  extN : Option (UserMat P.col)
  busOn : List Nat
  busOff : List Nat
  genOn : List Nat
  genOff : List Nat
  branchOn : List Nat
  branchOff : List Nat
  areasOn : List Nat
  areasOff : List Nat
  busI2e : List Nat
  busE2i : List Nat
  genE2i : List Nat
  genI2e : List Nat

/-- The part of a PYPOWER case dict that the conversion touches. -/
structure Case (P : Payload) where
  bus : List (BusRow P.bus)
  gen : List (GenRow P.gen)
  branch : List (BranchRow P.branch)
  areas : Option (List (AreaRow P.area))
  gencost : Option (List P.cost)
  A : Option (UserMat P.col)
  N : Option (UserMat P.col)
  order : Option (Order P)

/-- `bs` (ext2int.py:118): is this bus connected? -/
def busK {β : Type} (b : BusRow β) : Bool := b.typ != NONE

/-- ext2int.py:106-109: bus type codes that are none of PQ, PV, REF, NONE (1, 2, 3, 4). -/
def invalidType {β : Type} (b : BusRow β) : Bool :=
  !(b.typ == 1 || b.typ == 2 || b.typ == 3 || b.typ == NONE)

/-- ext2int.py:99-103: an empty areas table is deleted. -/
def areas' {P : Payload} (c : Case P) : Option (List (AreaRow P.area)) :=
  match c.areas with
  | some [] => none
  | a => a

/-- `n2i` (ext2int.py:113-115): a dense array of length `max(BUS_I)+1` built from a COO sparse matrix, so entries of
repeated bus numbers are *summed* and numbers that do not occur read 0; reading past the end raises. -/
def n2i {β : Type} (bus : List (BusRow β)) (num : Nat) : Option Nat :=
  if bus.any (fun b => num ≤ b.num) then
    some ((bus.zipIdx.filter (fun bi => bi.1.num == num)).map (·.2)).sum
  else none

/-- `bs[ n2i[num] ]` (ext2int.py:120,124,125,129): is the bus with this number connected?
`none` models `IndexError`. -/
def busStatusAt {β : Type} (bus : List (BusRow β)) (num : Nat) : Option Bool :=
  match n2i bus num with
  | none => none
  | some i => (bus[i]?).map (fun b => b.typ != NONE)

/-- `gs` (ext2int.py:119-120): generator on and connected. -/
def genStatus {β γ : Type} (bus : List (BusRow β)) (g : GenRow γ) : Option Bool :=
  (busStatusAt bus g.bus).map (fun s => decide (0 < g.status) && s)

/-- `brs` (ext2int.py:123-125): `BR_STATUS.astype(int) & bs[f] & bs[t]` is a *bitwise* and, so a branch is kept iff
the lowest bit of its status is set and both ends are connected. -/
def branchStatus {β δ : Type} (bus : List (BusRow β)) (l : BranchRow δ) : Option Bool :=
  match busStatusAt bus l.f, busStatusAt bus l.t with
  | some sf, some st => some (decide (l.status % 2 = 1) && sf && st)
  | _, _ => none

/-- `ar` (ext2int.py:129). -/
def areaStatus {β ε : Type} (bus : List (BusRow β)) (a : AreaRow ε) : Option Bool :=
  busStatusAt bus a.ref

/-- `e2i[num]` where `e2i` is the array of ext2int.py:153-154: length `max(i2e)+1`, zeros, then
`e2i[i2e] = arange(nb)` (the last write wins).  `none` models `IndexError`. -/
def e2iArray (i2e : List Nat) : List Nat :=
  (i2e.zipIdx).foldl (fun a p => a.set p.1 p.2) (List.replicate (i2e.foldl max 0 + 1) 0)

/-- `numpy.argsort` (ext2int.py:169-170) is a parameter: any function returning a permutation of the positions that
sorts the keys.  numpy's default algorithm is not stable, so no tie-breaking order is assumed. -/
structure IsArgsort (srt : List Nat → List Nat) : Prop where
  perm : ∀ l, (srt l).Perm (List.range l.length)
  sorted : ∀ l, ((srt l).filterMap (fun i => l[i]?)).Pairwise (· ≤ ·)

/-- Orderings accepted by `e2i_data`/`i2e_data` (e2i_data.py:66-71). -/
inductive Ordering where
  | bus | gen | branch
deriving DecidableEq, Repr

namespace Order
variable {P : Payload}

/-- `order[ordering]['status']['on']`. -/
def on (o : Order P) : Ordering → List Nat
  | .bus => o.busOn
  | .gen => o.genOn
  | .branch => o.branchOn

/-- `order['ext'][ordering].shape[0]` (e2i_data.py:76, i2e_data.py:80). -/
def extLen (o : Order P) : Ordering → Nat
  | .bus => o.extBus.length
  | .gen => o.extGen.length
  | .branch => o.extBranch.length
end Order

/-- `ppc[ordering].shape[0]` (i2e_data.py:81). -/
def Case.len {P : Payload} (c : Case P) : Ordering → Nat
  | .bus => c.bus.length
  | .gen => c.gen.length
  | .branch => c.branch.length

/-- `e2i_data` for a single ordering (e2i_data.py:66-71).  A one-dimensional array is a list; a two-dimensional array is the
list of its slices along `dim`.  (get_reorder.py:20-31 is `gather`.) -/
def e2iSet {P : Payload} {α : Type} (o : Order P) (val : List α) : Ordering → Option (List α)
  | .gen => (gather o.genOn o.genE2i).bind (gather val)
  | s => gather val (o.on s)

/-- Loop of e2i_data.py:73-83: convert consecutive blocks, then carry over the rest. -/
def e2iBlocks {P : Payload} {α : Type} (o : Order P) (val : List α) : Nat → List Ordering → Option (List α)
  | b, [] => gather val (List.range' b (val.length - b))
  | b, s :: ss =>
    match gather val (List.range' b (o.extLen s)) with
    | none => none
    | some v =>
      match e2iSet o v s, e2iBlocks o val (b + o.extLen s) ss with
      | some w, some r => some (w ++ r)
      | _, _ => none

/-- `e2i_data` for a list of orderings (e2i_data.py:72-94).  For *sparse* input the assembled result is computed and then
discarded (lines 85-89 do not assign), so the input comes back unchanged (if no exception occurred while slicing). -/
def e2iList {P : Payload} {α : Type} (o : Order P) (sparse : Bool) (val : List α) (ords : List Ordering) :
    Option (List α) :=
  match e2iBlocks o val 0 ords with
  | none => none
  | some r => if sparse then some val else some r

/-- `i2e_data` for a single ordering (i2e_data.py:69-74; set_reorder.py:21-30).
`cast` models `A.astype(B.dtype)` (set_reorder.py:23): the *old* values are converted to the dtype of the new ones. -/
def i2eSet {P : Payload} {α : Type} (o : Order P) (cast : α → α) (val oldval : List α) : Ordering → Option (List α)
  | .gen => (gather val o.genI2e).bind (fun v => scatter (oldval.map cast) o.genOn v)
  | s => scatter (oldval.map cast) (o.on s) val

/-- Loop of i2e_data.py:76-90 (dense data). -/
def i2eBlocks {P : Payload} {α : Type} (c : Case P) (o : Order P) (cast : α → α) (val oldval : List α) :
    Nat → Nat → List Ordering → Option (List α)
  | bi, _, [] => gather val (List.range' bi (val.length - bi))
  | bi, be, s :: ss =>
    match gather val (List.range' bi (c.len s)), gather oldval (List.range' be (o.extLen s)) with
    | some v, some old =>
      match i2eSet o cast v old s, i2eBlocks c o cast val oldval (bi + c.len s) (be + o.extLen s) ss with
      | some w, some r => some (w ++ r)
      | _, _ => none
    | _, _ => none

/-- `mapM`-style column update `tbl[:, COL] = arr[tbl[:, COL]]` with `IndexError` (ext2int.py:155-166, int2ext.py:88-103). -/
def renumber {α : Type} (arr : List Nat) (get : α → Nat) (set : α → Nat → α) : List α → Option (List α)
  | [] => some []
  | x :: xs =>
    match arr[get x]?, renumber arr get set xs with
    | some k, some r => some (set x k :: r)
    | _, _ => none

/-- Statuses of a whole column; `none` if any lookup raised. -/
def statuses {α : Type} (st : α → Option Bool) : List α → Option (List Bool)
  | [] => some []
  | x :: xs =>
    match st x, statuses st xs with
    | some b, some r => some (b :: r)
    | _, _ => none

def BusRow.setNum {β : Type} (b : BusRow β) (k : Nat) : BusRow β := { b with num := k }
def GenRow.setBus {γ : Type} (g : GenRow γ) (k : Nat) : GenRow γ := { g with bus := k }
def BranchRow.setF {δ : Type} (l : BranchRow δ) (k : Nat) : BranchRow δ := { l with f := k }
def BranchRow.setT {δ : Type} (l : BranchRow δ) (k : Nat) : BranchRow δ := { l with t := k }
def AreaRow.setRef {ε : Type} (a : AreaRow ε) (k : Nat) : AreaRow ε := { a with ref := k }

/-- `dc` (ext2int.py:85-90): a user matrix with fewer than `2*nb+2*ng` columns is for the DC formulation;
`A` takes precedence over `N`. Sizes are the *external* ones. -/
def isDC {P : Payload} (c : Case P) : Bool :=
  match c.A, c.N with
  | some A, _ => decide (A.cols.length < 2 * c.bus.length + 2 * c.gen.length)
  | none, some N => decide (N.cols.length < 2 * c.bus.length + 2 * c.gen.length)
  | none, none => false

/-- ext2int.py:181-183. -/
def gencostOrdering (ng0 rows : Nat) : List Ordering :=
  if rows = 2 * ng0 then [.gen, .gen] else [.gen]

/-- ext2int.py:185-189. -/
def matOrdering (dc : Bool) : List Ordering :=
  if dc then [.bus, .gen] else [.bus, .bus, .gen, .gen]

/-- `e2i_field` on an optional field holding row data (ext2int.py:180-184): absent stays absent, otherwise convert;
outer `none` is an exception. -/
def e2iGencost {P : Payload} (o : Order P) (ng0 : Nat) : Option (List P.cost) → Option (Option (List P.cost))
  | none => some none
  | some gc => (e2iList o false gc (gencostOrdering ng0 gc.length)).map some

/-- `e2i_field(ppc, 'A', ordering, 1)` (ext2int.py:190-193). -/
def e2iMat {P : Payload} (o : Order P) (dc : Bool) : Option (UserMat P.col) → Option (Option (UserMat P.col))
  | none => some none
  | some m => (e2iList o m.sparse m.cols (matOrdering dc)).map (fun cs => some { m with cols := cs })

/-- The conversion proper (ext2int.py:81-193), for a case that is not in internal order.
`max(...)` of an empty array raises, both for an empty bus table (line 114) and when no bus is connected (line 153). -/
def toInternal {P : Payload} (srt : List Nat → List Nat) (c : Case P) : Option (Case P) := do
  -- lines 99-103: an empty areas table is deleted
  let areas := areas' c
  -- lines 105-109: with a single invalid type only a warning is printed; formatting an array of two or more raises
  if 1 < (c.bus.filter invalidType).length then none else
  -- lines 113-132: statuses
  if c.bus = [] then none else
  let bs := c.bus.map busK
  let gs ← statuses (genStatus c.bus) c.gen
  let brs ← statuses (branchStatus c.bus) c.branch
  let ars ← statuses (areaStatus c.bus) (areas.getD [])
  -- lines 134-146: drop what is out of service
  let bus ← gather c.bus (find bs)
  let branch ← gather c.branch (find brs)
  let gen ← gather c.gen (find gs)
  let ar ← gather (areas.getD []) (find ars)
  -- lines 151-166: consecutive numbering
  if bus = [] then none else
  let i2e := bus.map (·.num)
  let e2i := e2iArray i2e
  let bus ← renumber e2i BusRow.num BusRow.setNum bus
  let gen ← renumber e2i GenRow.bus GenRow.setBus gen
  let branch ← renumber e2i BranchRow.f BranchRow.setF branch
  let branch ← renumber e2i BranchRow.t BranchRow.setT branch
  let ar ← renumber e2i AreaRow.ref AreaRow.setRef ar
  -- lines 168-172: sort generators by bus
  let genE2i := srt (gen.map (·.bus))
  let genI2e := srt genE2i
  let gen ← gather gen genE2i
  let o : Order P :=
    { internal := true, extBus := c.bus, extBranch := c.branch, extGen := c.gen, extAreas := areas,
      extGencost := c.gencost, extA := c.A, extN := c.N,
      busOn := find bs, busOff := find (bs.map not), genOn := find gs, genOff := find (gs.map not),
      branchOn := find brs, branchOff := find (brs.map not), areasOn := find ars, areasOff := find (ars.map not),
      busI2e := i2e, busE2i := e2i, genE2i := genE2i, genI2e := genI2e }
  -- lines 179-193: gencost, A, N
  let gencost ← e2iGencost o c.gen.length c.gencost
  let dc := isDC c
  let A ← e2iMat o dc c.A
  let N ← e2iMat o dc c.N
  some { bus := bus, gen := gen, branch := branch, areas := areas.map (fun _ => ar), gencost := gencost, A := A, N := N,
         order := some o }

/-- `ext2int(ppc)` (ext2int.py:56-197): a case already in internal order is returned unchanged. -/
def ext2int {P : Payload} (srt : List Nat → List Nat) (c : Case P) : Option (Case P) :=
  match c.order with
  | none => toInternal srt c
  | some o => if o.internal then some c else toInternal srt c

/-- int2ext.py:64-71 (and lines 72-75 for the other fields): a field that is present is replaced by its saved external version
(`KeyError` if nothing was saved). -/
def restore {α : Type} : Option α → Option α → Option (Option α)
  | none, _ => some none
  | some _, none => none
  | some _, some e => some (some e)

/-- int2ext.py:66-67,83-85,100-103: the areas table, when present. -/
def restoreAreas {P : Payload} (o : Order P) : Option (List (AreaRow P.area)) → Option (Option (List (AreaRow P.area)))
  | none => some none
  | some a => do
    let ext ← o.extAreas
    let a ← renumber o.busI2e AreaRow.ref AreaRow.setRef a
    let a ← scatter ext o.areasOn a
    some (some a)

/-- int2ext.py:55-107: restore the saved external tables, overwrite the in-service rows with the internal ones, revert the
bus numbers (the code first overwrites the rows and then renumbers the overwritten rows in place; renumbering first is the
same because the index lists have no repetitions).  `gencost`, `A`, `N` are restored from the saved external versions. `order['ext']` is deleted by the real code;
the model keeps the stale copy (it is never read in state `'e'` and is overwritten by the next `ext2int`). -/
def toExternal {P : Payload} (c : Case P) (o : Order P) : Option (Case P) := do
  let bus ← renumber o.busI2e BusRow.num BusRow.setNum c.bus
  let bus ← scatter o.extBus o.busOn bus
  let branch ← renumber o.busI2e BranchRow.f BranchRow.setF c.branch
  let branch ← renumber o.busI2e BranchRow.t BranchRow.setT branch
  let branch ← scatter o.extBranch o.branchOn branch
  let gen ← gather c.gen o.genI2e
  let gen ← renumber o.busI2e GenRow.bus GenRow.setBus gen
  let gen ← scatter o.extGen o.genOn gen
  let areas ← restoreAreas o c.areas
  let gencost ← restore c.gencost o.extGencost
  let A ← restore c.A o.extA
  let N ← restore c.N o.extN
  some { bus := bus, gen := gen, branch := branch, areas := areas, gencost := gencost, A := A, N := N,
         order := some { o with internal := false } }

/-- `int2ext(ppc)` (int2ext.py:43-110): without an `order` field the code writes a message and then raises `KeyError`;
a case already external is returned unchanged (with a message). -/
def int2ext {P : Payload} (c : Case P) : Option (Case P) :=
  match c.order with
  | none => none
  | some o => if o.internal then toExternal c o else some c

/-- `ext2int1` (ext2int.py:218-241): renumber without removing anything. `max` of an empty bus table raises. Returns `i2e` and
the tables; an empty areas table is not returned. -/
def ext2int1 {β γ δ ε : Type} (bus : List (BusRow β)) (gen : List (GenRow γ)) (branch : List (BranchRow δ))
    (areas : Option (List (AreaRow ε))) :
    Option (List Nat × List (BusRow β) × List (GenRow γ) × List (BranchRow δ) × Option (List (AreaRow ε))) := do
  if bus = [] then none else
  let i2e := bus.map (·.num)
  let e2i := e2iArray i2e
  let bus ← renumber e2i BusRow.num BusRow.setNum bus
  let gen ← renumber e2i GenRow.bus GenRow.setBus gen
  let branch ← renumber e2i BranchRow.f BranchRow.setF branch
  let branch ← renumber e2i BranchRow.t BranchRow.setT branch
  let areas ← match areas with
    | none => some none
    | some [] => some none
    | some a => (renumber e2i AreaRow.ref AreaRow.setRef a).map some
  some (i2e, bus, gen, branch, areas)

/-- `int2ext1` (int2ext.py:128-144).  Line 140 tests `areas != None`: for a numpy array this is an elementwise comparison, whose
truth value raises `ValueError` as soon as the array has more than one element (an areas row has at least two columns), and is
false for an empty array. -/
def int2ext1 {β γ δ ε : Type} (i2e : List Nat) (bus : List (BusRow β)) (gen : List (GenRow γ))
    (branch : List (BranchRow δ)) (areas : Option (List (AreaRow ε))) :
    Option (List (BusRow β) × List (GenRow γ) × List (BranchRow δ)) := do
  let bus ← renumber i2e BusRow.num BusRow.setNum bus
  let gen ← renumber i2e GenRow.bus GenRow.setBus gen
  let branch ← renumber i2e BranchRow.f BranchRow.setF branch
  let branch ← renumber i2e BranchRow.t BranchRow.setT branch
  match areas with
  | none => some (bus, gen, branch)
  | some [] => some (bus, gen, branch)
  | some (_ :: _) => none

end Verif.Index
