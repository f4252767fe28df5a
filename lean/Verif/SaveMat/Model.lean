import Verif.Loadcase.Model

/-!
# Model of saving to MAT files

`savecase.py:32-143` for a name that ends with `.mat`, on the memory of `Verif.Loadcase`, and what SciPy's `savemat` and `loadmat` do to the values: numbers become arrays of
one row and one column, vectors become arrays of one row, strings and dictionaries become arrays of objects.  This is taken from SciPy's documentation; SciPy itself is not modelled.
-/

namespace Verif.SaveMat

open CaseIO Loadcase

/-- The value that `loadmat` finds for a value given to `savemat`. -/
def toMat : Obj → Exc Val
  | .leaf .none => .error .type
  | .leaf (.num x) => .ok (.tab ⟨1, [[x]]⟩)
  | .leaf (.str _) => .ok (.other 1)
  | .leaf (.vec []) => .ok (.tab ⟨0, []⟩)
  | .leaf (.vec (x :: xs)) => .ok (.tab ⟨xs.length + 1, [x :: xs]⟩)
  | .leaf (.tab t) => .ok (.tab t)
  | .leaf (.other n) => .ok (.other n)
  | .dict _ => .ok (.other 1)

/-- `k in ppc and len(ppc[k]) > 0` (savecase.py:112-131); `len` raises for numbers, `None` and sparse matrices (the objects that are nothing else). -/
def filled (h : Heap) (r : ℕ) (k : String) : Exc Bool :=
  match field h r k with
  | none => .ok false
  | some x =>
    match h[x]? with
    | some (.leaf (.vec xs)) => .ok (!xs.isEmpty)
    | some (.leaf (.tab t)) => .ok (!t.rows.isEmpty)
    | some (.leaf (.str s)) => .ok (s != "")
    | some (.dict d) => .ok (!d.isEmpty)
    | _ => .error .type

/-- The keys among `ks` that are filled. -/
def filledOf (h : Heap) (r : ℕ) : List String → Exc (List String)
  | [] => .ok []
  | k :: ks =>
    match filled h r k with
    | .error e => .error e
    | .ok c => (filledOf h r ks).map fun t => if c then k :: t else t

/-- The keys among `ks` that are there. -/
def present (h : Heap) (r : ℕ) (ks : List String) : List String := ks.filter fun k => (field h r k).isSome

/-- User constraints (savecase.py:112-117). -/
def keysA (h : Heap) (r : ℕ) : Exc (List String) :=
  match filled h r "A" with
  | .ok true => (filledOf h r ["l", "u"]).map ("A" :: ·)
  | .ok false => .ok []
  | .error e => .error e

/-- User costs (savecase.py:118-124). -/
def keysN (h : Heap) (r : ℕ) : Exc (List String) :=
  match filled h r "N" with
  | .ok true => (filledOf h r ["H", "fparm"]).map fun t => "N" :: t ++ ["Cw"]
  | .ok false => .ok []
  | .error e => .error e

/-- What is saved (savecase.py:101-141).  Simplified: user functions are in a dictionary, so that the test of their number does not raise. -/
def keys (h : Heap) (r : ℕ) : Exc (List String) :=
  match keysA h r, keysN h r, filledOf h r ["z0", "zl", "zu"] with
  | .ok a, .ok n, .ok z =>
    .ok (["baseMVA", "bus", "gen", "branch"] ++ present h r ["areas", "gencost"] ++ a ++ n ++ z ++ present h r ["userfcn", "x", "f", "lin", "order", "nln", "var", "raw", "mu"])
  | .error e, _, _ => .error e
  | _, .error e, _ => .error e
  | _, _, .error e => .error e

/-- The values under the keys. -/
def values (h : Heap) (r : ℕ) : List String → Exc (List (String × Val))
  | [] => .ok []
  | k :: ks =>
    match field h r k with
    | none => .error .key
    | some x =>
      match h[x]? with
      | none => .error .other
      | some o =>
        match toMat o with
        | .error e => .error e
        | .ok v => (values h r ks).map ((k, v) :: ·)

/-- What `loadmat` adds to the variables (`__header__`, `__version__`, `__globals__`), and the version, which is replaced when the file is loaded. -/
def extras : List (String × Val) := [("__header__", .other 1), ("__version__", .other 1), ("__globals__", .other 0), ("version", .other 1)]

/-- The file with these variables: `loadmat` makes an object for each. -/
def file (es : List (String × Val)) : MatFile where
  load h := (h ++ es.map fun e => .leaf e.2, .ok (false, es.zipIdx.map fun p => (p.1.1, h.length + p.2)))

/-- `savecase` to a MAT file: the version is put into the caller's dictionary (savecase.py:48), and the file is written
(savecase.py:143).  Simplified: if more than one thing is wrong, it may be another exception that is raised; values nested in dictionaries are not looked at. -/
def savecase (h : Heap) (r : ℕ) : Py MatFile :=
  match entries h r with
  | none => (h, .error .type)
  | some _ =>
    match keys (store h r "version" (.str "2")) r with
    | .error e => (store h r "version" (.str "2"), .error e)
    | .ok ks => (store h r "version" (.str "2"), (values (store h r "version" (.str "2")) r ks).map fun es => file (extras ++ es))

/-- The first lines of `ext2int` on a case (ext2int.py:60-61): whether it is converted for the first time, or the state `order["state"]`. -/
def orderState (h : Heap) (p : ℕ) : Exc (Option ℕ) :=
  match field h p "order" with
  | none => .ok none
  | some o =>
    match entries h o with
    | none => .error .other
    | some d =>
      match lookup d "state" with
      | none => .error .key
      | some s => .ok (some s)

end Verif.SaveMat
