import Verif.Index.Spec

/-! Specification for C131: the same case with other bus numbers. -/

namespace Verif.Index
variable {P : Payload}

/-- `c2` is the case `c1` with every bus number `n` replaced by `f n`, in all tables; rows, their order and everything else are the same. -/
structure Renamed (f : Nat → Nat) (c1 c2 : Case P) : Prop where
  bus : c2.bus = c1.bus.map fun b => { b with num := f b.num }
  gen : c2.gen = c1.gen.map fun g => { g with bus := f g.bus }
  branch : c2.branch = c1.branch.map fun l => { l with f := f l.f, t := f l.t }
  areas : c2.areas = c1.areas.map fun as => as.map fun a => { a with ref := f a.ref }
  gencost : c2.gencost = c1.gencost
  A : c2.A = c1.A
  N : c2.N = c1.N

/-- Different buses of `c` get different numbers. -/
def Distinct (f : Nat → Nat) (c : Case P) : Prop := ∀ b1 ∈ c.bus, ∀ b2 ∈ c.bus, f b1.num = f b2.num → b1.num = b2.num

end Verif.Index
