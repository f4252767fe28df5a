import Verif.Runpf.TableSpec

/-! Specification of C133: cases on the same network whose injections are a combination of those of two others. -/

namespace Verif.Runpf

open Verif.Index (BusRow GenRow BranchRow GenInService)
open Verif.Opf (Tables BusD GenD BrD)

/-- The same network for the DC model: bus numbers and types, equipment in service, reactances, taps and phase shifts; everything else may differ. -/
structure SameWires (c1 c2 : Index.Case Tables) : Prop where
  bus : c2.bus.map (fun b => (b.num, b.typ)) = c1.bus.map (fun b => (b.num, b.typ))
  gen : c2.gen.map (fun g => (g.bus, g.status)) = c1.gen.map (fun g => (g.bus, g.status))
  branch : c2.branch.map (fun l => (l.f, l.t, l.status, l.data.x, l.data.tap, l.data.shift)) = c1.branch.map (fun l => (l.f, l.t, l.status, l.data.x, l.data.tap, l.data.shift))

/-- `c3` is on the network of `c1` and `c2`; its demands, shunts, outputs of generators in service and angles of slack buses are `a` times those of `c1` plus `b`
times those of `c2`. -/
structure Mixed (a b : ℝ) (c1 c2 c3 : Index.Case Tables) : Prop where
  same1 : SameWires c3 c1
  same2 : SameWires c3 c2
  demand : ∀ (i : ℕ) b1 b2 b3, c1.bus[i]? = some b1 → c2.bus[i]? = some b2 → c3.bus[i]? = some b3 →
    b3.data.PD = a * b1.data.PD + b * b2.data.PD ∧ b3.data.GS = a * b1.data.GS + b * b2.data.GS
  slack : ∀ (i : ℕ) b1 b2 b3, c1.bus[i]? = some b1 → c2.bus[i]? = some b2 → c3.bus[i]? = some b3 → IsSlack c3 i → b3.data.VA = a * b1.data.VA + b * b2.data.VA
  output : ∀ (j : ℕ) g1 g2 g3, c1.gen[j]? = some g1 → c2.gen[j]? = some g2 → c3.gen[j]? = some g3 → GenInService c3 g3 →
    g3.data.PG = a * g1.data.PG + b * g2.data.PG

end Verif.Runpf
