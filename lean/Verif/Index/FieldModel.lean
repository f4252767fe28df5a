import Verif.Index.Model

/-!
# Model of the conversion of nested fields

/repo/pypower/e2i_field.py and /repo/pypower/i2e_field.py.

A case dictionary with nested dictionaries is a tree whose leaves are arrays.  The three dictionaries involved, `ppc`, `ppc["order"]["ext"]` and `ppc["order"]["int"]`, are
kept apart; fields inside `ppc["order"]` itself are not modelled.  An exception gives `none`.
-/

namespace Verif.Index

/-- A value of a case: an array, or a dictionary. -/
inductive Tree (V : Type) where
  | leaf (v : V)
  | node (f : String → Option (Tree V))

namespace Tree
variable {V : Type}

/-- `{}`. -/
def empty : Tree V := .node fun _ => none

/-- `d[k1][k2]...`. -/
def get? : List String → Tree V → Option (Tree V)
  | [], t => some t
  | _ :: _, .leaf _ => none
  | k :: ks, .node f => (f k).bind (get? ks)

/-- The dictionary `f` with `f[k] = v`. -/
def upd (f : String → Option (Tree V)) (k : String) (v : Tree V) : String → Option (Tree V) := fun k' => if k' = k then some v else f k'

/-- `d[k1][k2]... = v`: the intermediate dictionaries must exist. -/
def set : List String → Tree V → Tree V → Option (Tree V)
  | [], _, _ => none
  | _ :: _, _, .leaf _ => none
  | [k], v, .node f => some (.node (upd f k v))
  | k :: k' :: ks, v, .node f => do
    let c ← f k
    let c' ← set (k' :: ks) v c
    some (.node (upd f k c'))

end Tree

open Tree

/-- The loop that is to create the intermediate dictionaries (e2i_field.py:55-59, i2e_field.py:47-51), for the dictionary `t` with `v_ext` at `cur`: the descent
`v_ext = v_ext[fld]` is inside the `if`, so that it happens only for keys that are new.  (`fld not in v_ext` for an array `v_ext`, which does not raise in all cases, is
taken as an exception.) -/
def walk {V : Type} : Tree V → List String → List String → Option (Tree V)
  | t, _, [] => some t
  | t, cur, k :: ks =>
    match get? cur t with
    | some (.node f) =>
      if (f k).isNone then (Tree.set (cur ++ [k]) Tree.empty t).bind fun t' => walk t' (cur ++ [k]) ks
      else walk t cur ks
    | _ => none

/-- The field: a string, or a list of strings for a nested one (e2i_field.py:49-53). -/
inductive Field where
  | str (s : String)
  | list (l : List String)

/-- The keys of a field. -/
def Field.path : Field → List String
  | .str s => [s]
  | .list l => l

/-- The dictionary of saved values is prepared (e2i_field.py:49-59). -/
def prepare {V : Type} (t : Tree V) : Field → Option (Tree V)
  | .str _ => some t
  | .list l => walk t [] l

/-- The array at a path, if there is one. -/
def arrayAt {V : Type} (p : List String) (t : Tree V) : Option V :=
  match get? p t with
  | some (.leaf v) => some v
  | _ => none

/-- `e2i_field` (e2i_field.py:15-64), with `conv` for `e2i_data(ppc, ., ordering, dim)`: the case and the saved external values. -/
def e2iField {V : Type} (conv : V → Option V) (field : Field) (data ext : Tree V) : Option (Tree V × Tree V) := do
  let ext1 ← prepare ext field
  let v ← arrayAt field.path data
  let ext2 ← Tree.set field.path (.leaf v) ext1
  let w ← conv v
  let data1 ← Tree.set field.path (.leaf w) data
  some (data1, ext2)

/-- `i2e_field` (i2e_field.py:8-57), with `back` for `i2e_data(ppc, ., ., ordering, dim)`: the case and the saved internal values; `int` is `{}` if it does not exist
(38-39). -/
def i2eField {V : Type} (back : V → V → Option V) (field : Field) (data ext int : Tree V) : Option (Tree V × Tree V) := do
  let int1 ← prepare int field
  let v ← arrayAt field.path data
  let int2 ← Tree.set field.path (.leaf v) int1
  let old ← arrayAt field.path ext
  let w ← back v old
  let data1 ← Tree.set field.path (.leaf w) data
  some (data1, int2)

end Verif.Index
