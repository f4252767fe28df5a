import Verif.CaseIO.Model
import Mathlib.Data.Rat.Defs
import Mathlib.Data.List.DropRight

/-!
# Model of `loadcase`: argument forms, exit codes, copies

`loadcase.py:27-223` with objects in memory, so that sharing between the caller's case and the returned one can be seen.  Not modelled: the messages on `stderr`; what was
changed before an exception is raised.
-/

namespace Verif.Loadcase

open CaseIO

/-! ### Memory -/

/-- Values without parts that can be changed on their own, and arrays. -/
inductive Val where
  | none
  | num (x : ℚ)
  | str (s : String)
  | vec (xs : List ℚ)
  | tab (t : Table ℚ)
  | other (n : ℕ)

/-- An object; references to objects are positions in memory. -/
inductive Obj where
  | leaf (v : Val)
  | dict (d : List (String × ℕ))

abbrev Heap := List Obj

/-- All references moved by `n`. -/
def Obj.shift (n : ℕ) : Obj → Obj
  | .leaf v => .leaf v
  | .dict d => .dict (d.map fun p => (p.1, p.2 + n))

/-- `deepcopy`: sharing and cycles among the copied objects are kept.  The model copies all of memory; what cannot be reached from the copy is garbage. -/
def deepcopy (h : Heap) (r : ℕ) : Heap × ℕ := (h ++ h.map (Obj.shift h.length), r + h.length)

/-- A new object. -/
def alloc (h : Heap) (o : Obj) : Heap × ℕ := (h ++ [o], h.length)

/-- The entry of a key. -/
def lookup (d : List (String × ℕ)) (k : String) : Option ℕ := (d.find? fun p => p.1 == k).map (·.2)

/-- `d[k] = r`. -/
def insert (d : List (String × ℕ)) (k : String) (r : ℕ) : List (String × ℕ) := (k, r) :: d.filter fun p => p.1 != k

/-- The entries of a dictionary object. -/
def entries (h : Heap) (r : ℕ) : Option (List (String × ℕ)) :=
  match h[r]? with
  | some (.dict d) => some d
  | _ => none

/-- The object under a key of a dictionary object. -/
def field (h : Heap) (r : ℕ) (k : String) : Option ℕ := (entries h r).bind fun d => lookup d k

/-- The value of an object. -/
def value (h : Heap) (r : ℕ) : Option Val :=
  match h[r]? with
  | some (.leaf v) => some v
  | _ => none

/-- The value under a key. -/
def fieldVal (h : Heap) (r : ℕ) (k : String) : Option Val := (field h r k).bind (value h)

/-! ### Exceptions -/

inductive Exn where
  | io
  | value
  | key
  | unbound
  | type
  | other
deriving DecidableEq

/-- Value of an expression that may raise. -/
abbrev Exc (α : Type) := Except Exn α

/-- Memory after a call and what it returned or raised. -/
abbrev Py (α : Type) := Heap × Except Exn α

/-! ### Files -/

/-- What the function of a case file returns; `tuple` stands for anything that can be unpacked. -/
inductive Ret where
  | dict (r : ℕ)
  | tuple (rs : List ℕ)
  | other

/-- A Python file: `exec(compile(open(…).read(), …))`, and `eval(fname)()`. -/
structure PyFile where
  exec : Heap → Py Unit
  call : Heap → Py Ret

/-- A MAT file: the fields of its structure `ppc` or `mpc` (`true`), or its variables. -/
structure MatFile where
  load : Heap → Py (Bool × List (String × ℕ))

structure World where
  mat : List Char → Option MatFile
  py : List Char → Option PyFile

inductive Arg where
  | str (s : List Char)
  | dict (r : ℕ)
  | other

inductive Result where
  | obj (r : ℕ)
  | list (rs : List ℕ)
  | code (n : ℕ)

inductive Ext where
  | mat
  | py
  | nothing

/-- `os.path.splitext` of a name that ends with `.py` or `.mat`: no extension if there are only dots before it. -/
def hasExt (root : List Char) : Bool := !(root.rtakeWhile (· != '/')).all (· == '.')

/-- Root and extension (loadcase.py:63-77); `none` for exit code 2. -/
def resolve (w : World) (casefile : List Char) : Option (List Char × Ext) :=
  if ".py".toList <:+ casefile then
    let root := casefile.take (casefile.length - 3)
    if hasExt root then some (root, .py) else some (casefile, .nothing)
  else if ".mat".toList <:+ casefile then
    let root := casefile.take (casefile.length - 4)
    if hasExt root then some (root, .mat) else some (casefile, .nothing)
  else if (w.mat (casefile ++ ".mat".toList)).isSome then some (casefile, .mat)
  else if (w.py (casefile ++ ".py".toList)).isSome then some (casefile, .py)
  else none

/-- The case read from a file, or an exit code. -/
inductive Read where
  | case (r : ℕ)
  | code (n : ℕ)

/-- `s['baseMVA'] = s['baseMVA'][0]` (loadcase.py:103). -/
def firstRow (h : Heap) (d : List (String × ℕ)) : Py ℕ :=
  match lookup d "baseMVA" with
  | none => (h, .error .key)
  | some b =>
    match value h b with
    | some (.tab t) => ((alloc (alloc h (.leaf (.vec (t.rows.headD [])))).1 (.dict (insert d "baseMVA" h.length))).1, .ok (h.length + 1))
    | _ => (h, .error .other)

/-- loadcase.py:83-107: an `IOError` gives code 3, other exceptions are not caught. -/
def readMat (f : Option MatFile) (h : Heap) : Py Read :=
  match f with
  | none => (h, .ok (.code 3))
  | some f =>
    match f.load h with
    | (h1, .error .io) => (h1, .ok (.code 3))
    | (h1, .error e) => (h1, .error e)
    | (h1, .ok (true, d)) => ((firstRow h1 d).1, (firstRow h1 d).2.map .case)
    | (h1, .ok (false, d)) =>
      ((firstRow (alloc h1 (.leaf (.str "1"))).1 (insert d "version" h1.length)).1,
        (firstRow (alloc h1 (.leaf (.str "1"))).1 (insert d "version" h1.length)).2.map .case)

/-- Unpacking into `n` targets. -/
def unpack (n : ℕ) : Ret → Exc (List ℕ)
  | .tuple rs => if rs.length = n then .ok rs else .error .value
  | _ => .error .type

/-- The dictionary `s` filled with the unpacked values (loadcase.py:123-151). -/
def fromTuple (h : Heap) (rs : List ℕ) : Heap × ℕ :=
  alloc (alloc h (.leaf (.str "1"))).1 (.dict ((["baseMVA", "bus", "gen", "branch", "areas", "gencost"].zip rs) ++ [("version", h.length)]))

/-- Calling the function and unpacking `n` values. -/
def callUnpack (f : PyFile) (n : ℕ) (h : Heap) : Py ℕ :=
  match f.call h with
  | (h1, .error e) => (h1, .error e)
  | (h1, .ok ret) =>
    match unpack n ret with
    | .error e => (h1, .error e)
    | .ok rs => ((fromTuple h1 rs).1, .ok (fromTuple h1 rs).2)

/-- A call whose `ValueError` and `IOError` both end in code 4 (loadcase.py:139-144, 146-151 inside 109-155). -/
def orFour (x : Py ℕ) : Py Read :=
  match x with
  | (h, .ok r) => (h, .ok (.case r))
  | (h, .error .value) => (h, .ok (.code 4))
  | (h, .error .io) => (h, .ok (.code 4))
  | (h, .error e) => (h, .error e)

/-- A call whose `IOError` ends in code 4 (loadcase.py:126-131). -/
def orIo (x : Py ℕ) : Py Read :=
  match x with
  | (h, .ok r) => (h, .ok (.case r))
  | (h, .error .io) => (h, .ok (.code 4))
  | (h, .error e) => (h, .error e)

/-- loadcase.py:122-151, `h` after the first call: the function is called again to be unpacked, and for a case object a third time if it does not return six values. -/
def readTuple (f : PyFile) (asObj expGencost : Bool) (h : Heap) : Py Read :=
  if expGencost then orIo (callUnpack f 6 h)
  else if asObj then
    match callUnpack f 6 h with
    | (h1, .error .value) => orFour (callUnpack f 4 h1)
    | x => orIo x
  else orFour (callUnpack f 4 h)

/-- loadcase.py:108-155 without the change of code 4 into 5. -/
def readPy4 (f : PyFile) (asObj expGencost : Bool) (h : Heap) : Py Read :=
  match f.exec h with
  | (h1, .error .io) => (h1, .ok (.code 4))
  | (h1, .error e) => (h1, .error e)
  | (h1, .ok ()) =>
    match f.call h1 with
    | (h2, .error .io) => (h2, .ok (.code 4))
    | (h2, .error .value) => (h2, .ok (.code 4))
    | (h2, .error e) => (h2, .error e)
    | (h2, .ok (.dict r)) => (h2, .ok (.case r))
    | (h2, .ok _) => readTuple f asObj expGencost h2

/-- loadcase.py:108-160: code 4 becomes 5 if the file exists. -/
def readPy (f : Option PyFile) (asObj expGencost : Bool) (h : Heap) : Py Read :=
  match f with
  | none => (h, .ok (.code 4))
  | some f =>
    match readPy4 f asObj expGencost h with
    | (h', .ok (.code _)) => (h', .ok (.code 5))
    | x => x

/-- loadcase.py:62-165. -/
def readArg (w : World) (h : Heap) (arg : Arg) (asObj expGencost : Bool) : Py Read :=
  match arg with
  | .dict r => ((deepcopy h r).1, .ok (.case (deepcopy h r).2))
  | .other => (h, .ok (.code 1))
  | .str s =>
    match resolve w s with
    | none => (h, .ok (.code 2))
    | some (root, .mat) => readMat (w.mat (root ++ ".mat".toList)) h
    | some (root, .py) => readPy (w.py (root ++ ".py".toList)) asObj expGencost h
    | some (_, .nothing) => (h, .error .unbound)

/-- `s[k] is None`. -/
def isNone (h : Heap) (s : ℕ) (k : String) : Exc Bool :=
  match entries h s with
  | none => .error .type
  | some d =>
    match lookup d k with
    | none => .error .key
    | some r =>
      match value h r with
      | some .none => .ok true
      | _ => .ok false

/-- The check of the required keys (loadcase.py:170-173), with the short-circuits of `or` and `and`. -/
def missing (h : Heap) (s : ℕ) : List String → Exc Bool
  | [] => .ok false
  | k :: ks =>
    match isNone h s k with
    | .ok false => missing h s ks
    | x => x

def required (expGencost expAreas : Bool) : List String :=
  ["baseMVA", "bus", "gen", "branch"] ++ ((if expGencost then ["gencost"] else []) ++ (if expAreas then ["areas"] else []))

/-- Assignment to a key of the dictionary object `p`. -/
def put (h : Heap) (p : ℕ) (k : String) (r : ℕ) : Heap :=
  match entries h p with
  | some d => h.set p (.dict (insert d k r))
  | none => h

/-- A new leaf under a key. -/
def store (h : Heap) (p : ℕ) (k : String) (v : Val) : Heap := put (alloc h (.leaf v)).1 p k h.length

/-- loadcase.py:177-192 on the copy `p`: `hasattr` of a dictionary finds no key, so empty areas are kept and the declared version is not looked at; arrays that `ppc_1to2`
returns unchanged are the same objects. -/
def convert (h : Heap) (p : ℕ) : Py Unit :=
  match fieldVal h p "gen" with
  | some (.tab g) =>
    if 21 ≤ g.cols then (store h p "version" (.str "2"), .ok ())
    else if 20 ≤ g.cols then (store (store h p "version" (.str "1")) p "version" (.str "2"), .ok ())
    else
      match fieldVal h p "branch" with
      | some (.tab b) =>
        (store (store (store (store h p "version" (.str "1")) p "gen" (.tab (gen1to2 g))) p "branch" (.tab (branch1to2 (-360) 360 b))) p "version" (.str "2"), .ok ())
      | _ => (store h p "version" (.str "1"), .error .other)
  | _ => (h, .error .other)

/-- The keys returned one by one (loadcase.py:198-204). -/
def listed (expGencost expAreas : Bool) : List String :=
  ["baseMVA", "bus", "gen", "branch"] ++ (if expGencost then (if expAreas then ["areas", "gencost"] else ["gencost"]) else [])

/-- `[ppc[k] for k in ks]`. -/
def fields (h : Heap) (p : ℕ) : List String → Exc (List ℕ)
  | [] => .ok []
  | k :: ks =>
    match field h p k with
    | none => .error .key
    | some r => (fields h p ks).map (r :: ·)

/-- What is returned (loadcase.py:194-204). -/
def output (h : Heap) (p : ℕ) (asObj expGencost expAreas : Bool) : Exc Result :=
  if asObj then .ok (.obj p) else (fields h p (listed expGencost expAreas)).map .list

/-- The end of `loadcase` when there is a case `s` (loadcase.py:168-204); `hasErr`: the variable `lasterr` has a value (loadcase.py:79, only for a string), without which
line 221 raises. -/
def finish (hasErr : Bool) (h : Heap) (s : ℕ) (asObj expGencost expAreas : Bool) : Py Result :=
  match missing h s (required expGencost expAreas) with
  | .error e => (h, .error e)
  | .ok true => (h, if hasErr then .ok (.code 5) else .error .unbound)
  | .ok false =>
    match convert (deepcopy h s).1 (deepcopy h s).2 with
    | (h2, .error e) => (h2, .error e)
    | (h2, .ok ()) => (h2, output h2 (deepcopy h s).2 asObj expGencost expAreas)

/-- `lasterr` has a value. -/
def Arg.hasErr : Arg → Bool
  | .str _ => true
  | _ => false

/-- `loadcase(casefile, return_as_obj, expect_gencost, expect_areas)` (loadcase.py:27-223). -/
def loadcase (w : World) (h : Heap) (arg : Arg) (asObj : Bool := true) (expGencost : Bool := true) (expAreas : Bool := true) : Py Result :=
  match readArg w h arg asObj (!asObj && expGencost) with
  | (h1, .error e) => (h1, .error e)
  | (h1, .ok (.code n)) => (h1, if arg.hasErr then .ok (.code n) else .error .unbound)
  | (h1, .ok (.case s)) => finish arg.hasErr h1 s asObj (!asObj && expGencost) (!asObj && expAreas)

/-- The first lines of `runpf` (runpf.py:85-88): `ppc = loadcase(casedata)` and `ppc["branch"]`. -/
def openCase (w : World) (h : Heap) (arg : Arg) : Py (ℕ × ℕ) :=
  match loadcase w h arg with
  | (h', .error e) => (h', .error e)
  | (h', .ok (.obj p)) =>
    match field h' p "branch" with
    | some b => (h', .ok (p, b))
    | none => (h', .error .key)
  | (h', .ok _) => (h', .error .type)

end Verif.Loadcase
