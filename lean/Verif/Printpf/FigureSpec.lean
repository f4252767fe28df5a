import Verif.Printpf.Spec

/-!
# Specification vocabulary for the counts, capacities and extremes of printed results
-/

namespace Verif.Printpf

open Verif.Opf (Tables BusD GenD BrD)
open Verif.Index (BusRow GenRow BranchRow)

noncomputable section

open Classical in
/-- How many elements of the list have the property. -/
def count {α : Type} (p : α → Prop) (l : List α) : ℕ := (l.map fun x => if p x then 1 else 0).sum

open Classical in
/-- The sum of a quantity over the elements of the list that have the property. -/
def sumOver {α : Type} (p : α → Prop) (f : α → ℝ) (l : List α) : ℝ := (l.map fun x => if p x then f x else 0).sum

/-- A row of the generator table that stands for a dispatchable load: it can only consume. -/
def Disp (g : GenRow GenD) : Prop := g.data.PMIN < 0 ∧ g.data.PMAX = 0

/-- Generators (in service), dispatchable loads in service. -/
def Unit' (g : GenRow GenD) : Prop := ¬ Disp g
def UnitOn (g : GenRow GenD) : Prop := 0 < g.status ∧ ¬ Disp g
def LoadOn (g : GenRow GenD) : Prop := 0 < g.status ∧ Disp g

/-- Buses with a fixed load, with a shunt. -/
def Loaded (b : BusRow BusD) : Prop := ¬ (b.data.PD = 0 ∧ b.data.QD = 0)
def Shunted (b : BusRow BusD) : Prop := ¬ (b.data.GS = 0 ∧ b.data.BS = 0)

/-- A tap ratio other than 0 marks a transformer. -/
def Xfmr (l : BranchRow BrD) : Prop := l.data.tap ≠ 0

/-- Bus number `n` belongs to area `a`. -/
def InArea (area : List ℝ → ℤ) (t : Index.Case Tables) (n : ℕ) (a : ℤ) : Prop := ∃ b ∈ t.bus, b.num = n ∧ area b.data.rest = a

/-- The branch joins two different areas. -/
def Tie (area : List ℝ → ℤ) (t : Index.Case Tables) (l : BranchRow BrD) : Prop := ∃ a a', InArea area t l.f a ∧ InArea area t l.t a' ∧ a ≠ a'

/-- The branch lies inside the area; it joins the area to another. -/
def Inside (area : List ℝ → ℤ) (t : Index.Case Tables) (a : ℤ) (l : BranchRow BrD) : Prop := InArea area t l.f a ∧ InArea area t l.t a
def TieOf (area : List ℝ → ℤ) (t : Index.Case Tables) (a : ℤ) (l : BranchRow BrD) : Prop :=
  InArea area t l.f a ∧ ¬ InArea area t l.t a ∨ ¬ InArea area t l.f a ∧ InArea area t l.t a

/-- `v` is the least (greatest) value of `f` on the list, and `x` is the first element where it is taken. -/
def Least {α : Type} (f : α → ℝ) (l : List α) (v : ℝ) (x : α) : Prop :=
  v = f x ∧ ∃ pre post, l = pre ++ x :: post ∧ (∀ y ∈ pre, f x < f y) ∧ ∀ y ∈ post, f x ≤ f y
def Greatest {α : Type} (f : α → ℝ) (l : List α) (v : ℝ) (x : α) : Prop :=
  v = f x ∧ ∃ pre post, l = pre ++ x :: post ∧ (∀ y ∈ pre, f y < f x) ∧ ∀ y ∈ post, f y ≤ f x

/-- Reactive power in MVAr produced by the charging of a branch in service, given the rows of its end buses. -/
def charging (base : ℝ) (l : BranchRow BrD) (bf bt : BusRow BusD) : ℝ :=
  if l.status = 0 then 0 else (bf.data.VM ^ 2 / (if l.data.tap = 0 then 1 else l.data.tap) ^ 2 + bt.data.VM ^ 2) * l.data.b * base / 2

/-- The option value in force for the listing of limits: `OUT_ALL` 1 lists everything; with −1 the overall option `OUT_ALL_LIM` decides, unless it is −1, when each section has its own. -/
def LimIs (o : PrintOpt) (own : PrintOpt → ℕ) (n : ℕ) : Prop :=
  (o.OUT_ALL = 1 ∧ n = 2) ∨ (o.OUT_ALL = -1 ∧ o.OUT_ALL_LIM ≠ -1 ∧ (n : ℤ) = o.OUT_ALL_LIM) ∨ (o.OUT_ALL = -1 ∧ o.OUT_ALL_LIM = -1 ∧ n = own o)

/-- The size of a flow that is compared with the rating: active power, current or apparent power. -/
def flowSize (o : PrintOpt) (p q vm : ℝ) : ℝ :=
  if o.OPF_FLOW_LIM = 1 ∨ o.PF_DC = true then |p| else if o.OPF_FLOW_LIM = 2 then Real.sqrt (p ^ 2 + q ^ 2) / |vm| else Real.sqrt (p ^ 2 + q ^ 2)

/-- The flow limit of the branch is binding: a flow within the tolerance of the rating (0: none) at one end, or a shadow price. -/
def LineBinding (o : PrintOpt) (t : Index.Case Tables) (l : BranchRow BrD) : Prop :=
  l.data.rateA ≠ 0 ∧ ((∃ b ∈ t.bus, b.num = l.f ∧ l.data.rateA - o.OPF_VIOLATION < flowSize o l.data.PF l.data.QF b.data.VM) ∨
    ∃ b ∈ t.bus, b.num = l.t ∧ l.data.rateA - o.OPF_VIOLATION < flowSize o l.data.PT l.data.QT b.data.VM) ∨ 1e-4 < l.data.MU_SF ∨ 1e-4 < l.data.MU_ST

/-- A limit on the active (reactive) output is binding. -/
def PgBinding (o : PrintOpt) (g : GenRow GenD) : Prop :=
  g.data.PG < g.data.PMIN + o.OPF_VIOLATION ∨ g.data.PG > g.data.PMAX - o.OPF_VIOLATION ∨ 1e-4 < g.data.MU_PMIN ∨ 1e-4 < g.data.MU_PMAX
def QgBinding (o : PrintOpt) (g : GenRow GenD) : Prop :=
  g.data.QG < g.data.QMIN + o.OPF_VIOLATION ∨ g.data.QG > g.data.QMAX - o.OPF_VIOLATION ∨ 1e-4 < g.data.MU_QMIN ∨ 1e-4 < g.data.MU_QMAX

open Classical in
/-- The rows that have the property, in order. -/
def rowsWith {α : Type} (p : α → Prop) (l : List α) : List α := l.filter fun x => decide (p x)

end

end Verif.Printpf
