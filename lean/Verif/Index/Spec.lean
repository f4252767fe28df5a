import Verif.Index.Model

/-!
# Specification vocabulary for the numbering conversion

What a user means by a well-formed case and by equipment being in service, stated on the input tables only.
-/

namespace Verif.Index
variable {P : Payload}

/-- A bus number belongs to a bus of the case. -/
def HasBus (c : Case P) (n : Nat) : Prop := ∃ b ∈ c.bus, b.num = n

/-- A bus number belongs to a connected bus (type not NONE). -/
def Connected (c : Case P) (n : Nat) : Prop := ∃ b ∈ c.bus, b.num = n ∧ b.typ ≠ 4

/-- Generator in service: positive status and connected bus. -/
def GenInService (c : Case P) (g : GenRow P.gen) : Prop := 0 < g.status ∧ Connected c g.bus

/-- Branch in service: status bit set (the status column is 0 or 1 in the case format) and both ends connected. -/
def BranchInService (c : Case P) (l : BranchRow P.branch) : Prop :=
  l.status % 2 = 1 ∧ Connected c l.f ∧ Connected c l.t

/-- Area in service: its reference bus is connected. -/
def AreaInService (c : Case P) (a : AreaRow P.area) : Prop := Connected c a.ref

/-- Number of columns a user matrix must at least have for the conversion to make sense. -/
def minCols (c : Case P) : Nat :=
  if isDC c then c.bus.length + c.gen.length else 2 * c.bus.length + 2 * c.gen.length

/-- A well-formed external case: distinct bus numbers, valid bus types, at least one connected bus, every reference is to an existing bus,
cost rows and user matrix columns for all the equipment, and the case is not in internal order. -/
structure WF (c : Case P) : Prop where
  busNodup : (c.bus.map (·.num)).Nodup
  typValid : ∀ b ∈ c.bus, b.typ = 1 ∨ b.typ = 2 ∨ b.typ = 3 ∨ b.typ = 4
  someOn : ∃ b ∈ c.bus, b.typ ≠ 4
  genRef : ∀ g ∈ c.gen, HasBus c g.bus
  fRef : ∀ l ∈ c.branch, HasBus c l.f
  tRef : ∀ l ∈ c.branch, HasBus c l.t
  areaRef : ∀ as, c.areas = some as → ∀ a ∈ as, HasBus c a.ref
  costRows : ∀ gc, c.gencost = some gc → c.gen.length ≤ gc.length
  aCols : ∀ m, c.A = some m → minCols c ≤ m.cols.length
  nCols : ∀ m, c.N = some m → minCols c ≤ m.cols.length
  notInternal : ∀ o, c.order = some o → o.internal = false

/-- Internal bus number `k` stands for the bus with external number `n`; `pos[k]` is the row of the external table. -/
def IntBus (c : Case P) (busPos : List Nat) (k n : Nat) : Prop :=
  ∃ i b, busPos[k]? = some i ∧ c.bus[i]? = some b ∧ b.num = n

/-- `c'` is the internal version of the external case `c`: row `k` of an internal table is the external row `pos[k]` of the same
table, with the bus numbers replaced; exactly the in-service rows occur, each once; buses are numbered 0, 1, 2, …;
buses, branches and areas keep their order, generators are sorted by bus. -/
structure Corr (c c' : Case P) (pos : Ordering → List Nat) (apos : List Nat) : Prop where
  busLen : c'.bus.length = (pos .bus).length
  busRow : ∀ (k i : Nat), (pos .bus)[k]? = some i → ∃ b : BusRow P.bus, c.bus[i]? = some b ∧ c'.bus[k]? = some { b with num := k }
  busIn : ∀ i b, c.bus[i]? = some b → (i ∈ pos .bus ↔ b.typ ≠ 4)
  busOrder : (pos .bus).Pairwise (· < ·)
  genLen : c'.gen.length = (pos .gen).length
  genRow : ∀ (k i : Nat), (pos .gen)[k]? = some i → ∃ (g : GenRow P.gen) (n : Nat), c.gen[i]? = some g ∧ c'.gen[k]? = some { g with bus := n } ∧
    IntBus c (pos .bus) n g.bus
  genIn : ∀ i g, c.gen[i]? = some g → (i ∈ pos .gen ↔ GenInService c g)
  genNodup : (pos .gen).Nodup
  genSorted : (c'.gen.map (·.bus)).Pairwise (· ≤ ·)
  brLen : c'.branch.length = (pos .branch).length
  brRow : ∀ (k i : Nat), (pos .branch)[k]? = some i → ∃ (l : BranchRow P.branch) (f t : Nat), c.branch[i]? = some l ∧
    c'.branch[k]? = some { l with f := f, t := t } ∧ IntBus c (pos .bus) f l.f ∧ IntBus c (pos .bus) t l.t
  brIn : ∀ i l, c.branch[i]? = some l → (i ∈ pos .branch ↔ BranchInService c l)
  brOrder : (pos .branch).Pairwise (· < ·)
  arNone : c'.areas = none ↔ c.areas = none ∨ c.areas = some []
  arLen : ∀ as', c'.areas = some as' → as'.length = apos.length
  arRow : ∀ as as', c.areas = some as → c'.areas = some as' → ∀ (k i : Nat), apos[k]? = some i →
    ∃ (a : AreaRow P.area) (n : Nat), as[i]? = some a ∧ as'[k]? = some { a with ref := n } ∧ IntBus c (pos .bus) n a.ref
  arIn : ∀ as i a, c.areas = some as → as[i]? = some a → (i ∈ apos ↔ AreaInService c a)
  arOrder : apos.Pairwise (· < ·)

/-- `r` consists of the entries of `val` at the rows `pos`, in that order. -/
def ReadsRows {α : Type} (pos : List Nat) (val r : List α) : Prop :=
  r.length = pos.length ∧ ∀ (k i : Nat), pos[k]? = some i → r[k]? = val[i]?

/-- `r` is `old` with the entry at row `pos[k]` replaced by `val[k]`. -/
def WritesRows {α : Type} (pos : List Nat) (val old r : List α) : Prop :=
  r.length = old.length ∧ (∀ (k i : Nat), pos[k]? = some i → r[i]? = val[k]?) ∧ (∀ i : Nat, i ∉ pos → r[i]? = old[i]?)

/-- Length of an external table. -/
def rows (c : Case P) : Ordering → Nat
  | .bus => c.bus.length
  | .gen => c.gen.length
  | .branch => c.branch.length

/-- `c''` is the internal case `c'` after a solver has overwritten results: any column may differ except the bus number
columns; no row, table or matrix was added or removed; the saved order is the same. -/
structure Solved (c' c'' : Case P) : Prop where
  bus : c''.bus.map (·.num) = c'.bus.map (·.num)
  gen : c''.gen.map (·.bus) = c'.gen.map (·.bus)
  brF : c''.branch.map (·.f) = c'.branch.map (·.f)
  brT : c''.branch.map (·.t) = c'.branch.map (·.t)
  areas : c''.areas.map (·.map (·.ref)) = c'.areas.map (·.map (·.ref))
  gencost : c''.gencost.isSome = c'.gencost.isSome
  A : c''.A.isSome = c'.A.isSome
  N : c''.N.isSome = c'.N.isSome
  order : c''.order = c'.order

/-- Table `r` is the external table `ext` with, for each internal row `k`, the external row `pos[k]` replaced by the internal row
with the original bus number(s) put back (`back new old`). -/
def PutBack {α : Type} (pos : List Nat) (back : α → α → α) (ext int r : List α) : Prop :=
  r.length = ext.length ∧
  (∀ (k i : Nat), pos[k]? = some i → ∃ new old, int[k]? = some new ∧ ext[i]? = some old ∧ r[i]? = some (back new old)) ∧
  (∀ i : Nat, i ∉ pos → r[i]? = ext[i]?)

/-- `r` is the external case `c` with the results of the internal case `c''` put in place. -/
structure Restored (c c'' r : Case P) (pos : Ordering → List Nat) (apos : List Nat) : Prop where
  bus : PutBack (pos .bus) (fun new old => { new with num := old.num }) c.bus c''.bus r.bus
  gen : PutBack (pos .gen) (fun new old => { new with bus := old.bus }) c.gen c''.gen r.gen
  branch : PutBack (pos .branch) (fun new old => { new with f := old.f, t := old.t }) c.branch c''.branch r.branch
  areasNone : (c.areas = none ∨ c.areas = some []) → r.areas = none
  areas : ∀ as as'', c.areas = some as → c''.areas = some as'' → ∃ ra, r.areas = some ra ∧
    PutBack apos (fun new old => { new with ref := old.ref }) as as'' ra
  gencost : r.gencost = c.gencost
  A : r.A = c.A
  N : r.N = c.N

/-- The width that decides between the two column layouts of the user matrices: that of `A` if there is one, else that of `N`. -/
def decidingWidth (c : Case P) : Option Nat := (c.A <|> c.N).map (·.cols.length)

/-- Columns of a dense user matrix, written as the blocks (Va, Vm, Pg, Qg, rest) when the deciding width is that of the AC
formulation and (Va, Pg, rest) otherwise, are reordered block by block. -/
def MatReordered (c : Case P) (pos : Ordering → List Nat) (m m' : Option (UserMat P.col)) : Prop :=
  (∀ w va vm pg qg rest, decidingWidth c = some w → 2 * c.bus.length + 2 * c.gen.length ≤ w →
    m = some ⟨false, va ++ vm ++ pg ++ qg ++ rest⟩ →
    va.length = c.bus.length → vm.length = c.bus.length → pg.length = c.gen.length → qg.length = c.gen.length →
    ∃ va' vm' pg' qg', m' = some ⟨false, va' ++ vm' ++ pg' ++ qg' ++ rest⟩ ∧ ReadsRows (pos .bus) va va' ∧
      ReadsRows (pos .bus) vm vm' ∧ ReadsRows (pos .gen) pg pg' ∧ ReadsRows (pos .gen) qg qg') ∧
  (∀ w va pg rest, decidingWidth c = some w → w < 2 * c.bus.length + 2 * c.gen.length →
    m = some ⟨false, va ++ pg ++ rest⟩ → va.length = c.bus.length → pg.length = c.gen.length →
    ∃ va' pg', m' = some ⟨false, va' ++ pg' ++ rest⟩ ∧ ReadsRows (pos .bus) va va' ∧ ReadsRows (pos .gen) pg pg')

/-- Cost rows: the first block belongs to the active, the second (present when there are twice as many rows as generators) to the
reactive outputs of the generators. -/
def CostReordered (c : Case P) (pos : Ordering → List Nat) (gc gc' : Option (List P.cost)) : Prop :=
  (gc = none → gc' = none) ∧
  (∀ p q, gc = some (p ++ q) → p.length = c.gen.length → q.length = c.gen.length →
    ∃ p' q', gc' = some (p' ++ q') ∧ ReadsRows (pos .gen) p p' ∧ ReadsRows (pos .gen) q q') ∧
  (∀ p rest, gc = some (p ++ rest) → p.length = c.gen.length → rest.length ≠ c.gen.length →
    ∃ p', gc' = some (p' ++ rest) ∧ ReadsRows (pos .gen) p p')

end Verif.Index
