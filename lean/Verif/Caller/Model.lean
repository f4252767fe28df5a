import Verif.Loadcase.Model
import Verif.Opf.ArgsModel
import Verif.Uopf.Model

/-!
# What runs do to the case they are given

The memory of `Verif.Loadcase`, and what programs do with the objects they hold.
-/

namespace Verif.Caller

open CaseIO Loadcase

/-! ### Programs -/

/-- One step of a program that holds references to objects (its variables): read an entry, make a value or a dictionary, assign to or delete an entry, write into an array, copy. -/
inductive Act where
  | get (i : ℕ) (k : String)
  | leaf (v : Val)
  | dict (es : List (String × ℕ))
  | set (i : ℕ) (k : String) (j : ℕ)
  | del (i : ℕ) (k : String)
  | write (i : ℕ) (v : Val)
  | copy (i : ℕ)

/-- The entries of a new dictionary, given by variables. -/
def members (ls : List ℕ) : List (String × ℕ) → Option (List (String × ℕ))
  | [] => some []
  | e :: es => do
    let x ← ls[e.2]?
    let t ← members ls es
    pure ((e.1, x) :: t)

/-- One step; `none` if it raises. -/
def step (h : Heap) (ls : List ℕ) : Act → Option (Heap × List ℕ)
  | .get i k => do
    let a ← ls[i]?
    let b ← field h a k
    pure (h, ls ++ [b])
  | .leaf v => some (h ++ [.leaf v], ls ++ [h.length])
  | .dict es => do
    let d ← members ls es
    pure (h ++ [.dict d], ls ++ [h.length])
  | .set i k j => do
    let a ← ls[i]?
    let b ← ls[j]?
    pure (put h a k b, ls)
  | .del i k => do
    let a ← ls[i]?
    let d ← entries h a
    pure (h.set a (.dict (d.filter fun p => p.1 != k)), ls)
  | .write i v => do
    let a ← ls[i]?
    let _ ← value h a
    pure (h.set a (.leaf v), ls)
  | .copy i => do
    let a ← ls[i]?
    pure ((deepcopy h a).1, ls ++ [(deepcopy h a).2])

/-- An execution of any program: the steps it happened to take. -/
def run (h : Heap) (ls : List ℕ) : List Act → Option (Heap × List ℕ)
  | [] => some (h, ls)
  | a :: as => do
    let s ← step h ls a
    run s.1 s.2 as

/-! ### Power flows -/

/-- `runpf` and the functions that call it (runpf.py:75-293, rundcpf.py): the case is loaded, and only what was loaded is used afterwards.  Steps and values of the
rest are arbitrary. -/
def runpf (w : World) (h : Heap) (arg : Arg) (rest : List Act) : Option (Heap × List ℕ) :=
  match loadcase w h arg with
  | (h1, .ok (.obj p)) => run h1 [p] rest
  | _ => none

/-- `runcpf` (runcpf.py:64-300): the second case is loaded after some work on the first. -/
def runcpf (w : World) (h : Heap) (base target : Arg) (first rest : List Act) : Option (Heap × List ℕ) :=
  match loadcase w h base with
  | (h1, .ok (.obj p)) => do
    let s ← run h1 [p] first
    match loadcase w s.1 target with
    | (h2, .ok (.obj q)) => run h2 (s.2 ++ [q]) rest
    | _ => none
  | _ => none

/-! ### Optimal power flows -/

/-- A dictionary object as the argument handling sees it. -/
def dictOf (h : Heap) (p : ℕ) : Opf.Args.Dict ℕ := fun k =>
  (field h p k).map fun x =>
    match value h x with
    | some .none => none
    | _ => some x

/-- `len(v)`; for objects that are not arrays or strings the number they carry. -/
def size : Val → ℕ
  | .none => 0
  | .num _ => 0
  | .str s => s.length
  | .vec xs => xs.length
  | .tab t => t.rows.length
  | .other n => n

/-- `len` of an object, and `shape[0]` of an array. -/
def lenIn (h : Heap) (x : ℕ) : ℕ :=
  match h[x]? with
  | some (.leaf v) => size v
  | some (.dict d) => d.length
  | none => 0

/-- The keys `opf_args2` assigns to (opf_args.py:339-362). -/
def opfKeys : List String := ["baseMVA", "bus", "gen", "branch", "gencost", "areas", "A", "l", "u", "N", "Cw", "fparm", "H", "z0", "zl", "zu", "userfcn"]

/-- Assignments to the keys of the dictionary object `r`; `z` is the object `None`. -/
def assign (z r : ℕ) (d : Opf.Args.Dict ℕ) (h : Heap) (k : String) : Heap :=
  match d k with
  | some (some x) => put h r k x
  | some none => put h r k z
  | none => h

/-- The objects `None`, `array([])` and the default options, which are there or made on the way. -/
def consts : Heap := [.leaf .none, .leaf (.vec []), .leaf (.other 1)]

/-- `opf_args2` of a dictionary (opf_args.py:331-364): the case is loaded from the dictionary object `r`, and the tables and user data found are put into `r` itself.
Assignments made before an exception are not modelled. -/
def opfArgs2 (w : World) (h : Heap) (r : ℕ) (rest : List (Option ℕ)) : Option Heap :=
  match loadcase w h (.dict r) with
  | (h1, .ok (.obj p)) => do
    let d ← Opf.Args.opfArgs2 ⟨lenIn (h1 ++ consts), lenIn (h1 ++ consts), h1.length + 1, h1.length + 2, fun _ => none, fun _ => some (dictOf h1 p)⟩ (.dict (dictOf h1 r)) rest
    pure (opfKeys.foldl (assign h1.length r d.1) (h1 ++ consts))
  | _ => none

/-- Zero columns up to `n` (opf.py:157-164). -/
def pad (n : ℕ) (t : Table ℚ) : Table ℚ := ⟨n, t.rows.map fun row => row ++ List.replicate (n - t.cols) 0⟩

/-- One of the three tables is replaced by a wider one, in the dictionary `r` (opf.py:157-164). -/
def widen (r : ℕ) (h : Heap) (e : String × ℕ) : Heap :=
  match fieldVal h r e.1 with
  | some (.tab t) => if t.cols < e.2 then store h r e.1 (.tab (pad e.2 t)) else h
  | _ => h

/-- `opf` of a dictionary (opf.py:148-196): after the tables are widened, `ext2int` copies the dictionary (ext2int.py:59) and only the copy is used.  Steps and values of the rest are arbitrary. -/
def opf (w : World) (h : Heap) (r : ℕ) (args : List (Option ℕ)) (rest : List Act) : Option (Heap × List ℕ) := do
  let h1 ← opfArgs2 w h r args
  let h2 := [("bus", 17), ("gen", 25), ("branch", 21)].foldl (widen r) h1
  run (deepcopy h2 r).1 [(deepcopy h2 r).2] rest

/-! ### Unit decommitment -/

section
open Uopf
variable {B R : Type} [CommRing R] [LinearOrder R]

/-- The generator table in the caller's dictionary after the candidates of a stage were tried (uopf.py:98-103): that of the last one. -/
def lastTried (r0 : Res B R) (ks : List ℕ) (gen : List (Row R)) : List (Row R) :=
  match ks.getLast? with
  | none => gen
  | some k => switchOff r0.gen k

/-- The main loop (uopf.py:88-121) with the tables in the dictionary it was called with: `ppc` is the caller's own (opf_args.py:337). -/
def stagesIn (opf : B → List (Row R) → Option (Res B R)) : ℕ → Res B R → List (Row R) → Option (Res B R × B × List (Row R))
  | 0, _, _ => none
  | n + 1, r0, gen =>
    match candidates r0.gen with
    | [] => some (r0, r0.bus, gen)
    | k :: ks =>
      match tryAll opf r0 (k :: ks) r0 false with
      | none => none
      | some (_, false) => some (r0, r0.bus, lastTried r0 (k :: ks) gen)
      | some (r1, true) => stagesIn opf n r1 (lastTried r0 (k :: ks) gen)

/-- `uopf` (uopf.py:25-130): the result, and the bus and generator tables in the caller's dictionary when it returns. -/
def uopfIn (opf : B → List (Row R) → Option (Res B R)) (pd : B → List R) (cost : List (Row R) → List R) (n : ℕ) (bus : B) (gen : List (Row R)) :
    Option (Res B R × B × List (Row R)) :=
  match precommit (pd bus) cost (gen.length + 1) gen with
  | none => none
  | some gen' =>
    match opf bus gen' with
    | none => none
    | some r => stagesIn opf n r gen'

end

end Verif.Caller
