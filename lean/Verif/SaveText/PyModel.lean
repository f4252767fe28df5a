import Verif.SaveText.NumModel

/-!
# Model of the Python source `loadcase` executes

`loadcase` executes the file and calls the function named like it (loadcase.py:108-113).  The part of Python modelled here: one function without arguments whose body
is a sequence of assignments of numbers, strings and two-dimensional array literals to entries of a dictionary; comments; indentation; lines continued inside
brackets.  `none` stands for an exception (`SyntaxError`, `IndentationError`, `NameError`, …) and for anything outside this part.
-/

namespace Verif.SaveText

/-! ### Tokens -/

/-- Tokens; `line n` begins a logical line indented by `n` spaces. -/
inductive Tok where
  | line (n : ℕ)
  | name (s : List Char)
  | str (s : List Char)
  | num (l : Lit)
  | sym (c : Char)
deriving DecidableEq

/-- Where the reader is: at the beginning of a line after `n` spaces, between tokens, in a number, in a name, in a string, in a comment. -/
inductive Mode where
  | bol (n : ℕ)
  | mid
  | num (buf : List Char) (last : Char)
  | name (buf : List Char)
  | str (q : Char) (buf : List Char)
  | com
deriving DecidableEq

/-- State of the reader: mode, number of open brackets, tokens so far, the last one first. -/
structure LS where
  mode : Mode
  depth : ℕ
  out : List Tok
deriving DecidableEq

def LS.emit (s : LS) (t : Tok) : LS := { s with mode := .mid, out := t :: s.out }

def identStart (c : Char) : Bool := c.isAlpha || c == '_'
def identChar (c : Char) : Bool := c.isAlphanum || c == '_'

/-- Mode after the end of a physical line: a newline inside brackets is white space. -/
def eol (depth : ℕ) : Mode := if depth = 0 then .bol 0 else .mid

/-- A character between tokens. -/
def begin (s : LS) (c : Char) : Option LS :=
  if c = ' ' then some { s with mode := .mid }
  else if c = '\n' then some { s with mode := eol s.depth }
  else if c = '#' then some { s with mode := .com }
  else if c.isDigit then some { s with mode := .num [c] c }
  else if identStart c then some { s with mode := .name [c] }
  else if c = '\'' ∨ c = '"' then some { s with mode := .str c [] }
  else if c = '(' ∨ c = '[' ∨ c = '{' then some { (s.emit (.sym c)) with depth := s.depth + 1 }
  else if c = ')' ∨ c = ']' ∨ c = '}' then
    if s.depth = 0 then none else some { (s.emit (.sym c)) with depth := s.depth - 1 }
  else if c = ',' ∨ c = ':' ∨ c = '=' ∨ c = '-' then some (s.emit (.sym c))
  else none

/-- One character. -/
def step (s : LS) (c : Char) : Option LS :=
  match s.mode with
  | .bol n =>
    if c = ' ' then some { s with mode := .bol (n + 1) }
    else if c = '\n' then some { s with mode := .bol 0 }
    else if c = '#' then some { s with mode := .com }
    else begin (s.emit (.line n)) c
  | .mid => begin s c
  | .num buf last =>
    if c.isDigit || c == '.' || c == 'e' || ((c == '+' || c == '-') && last == 'e') then some { s with mode := .num (buf ++ [c]) c }
    else (readNum buf).bind fun l => begin (s.emit (.num l)) c
  | .name buf => if identChar c then some { s with mode := .name (buf ++ [c]) } else begin (s.emit (.name buf)) c
  | .str q buf =>
    if c = q then some (s.emit (.str buf)) else if c = '\n' ∨ c = '\\' then none else some { s with mode := .str q (buf ++ [c]) }
  | .com => if c = '\n' then some { s with mode := eol s.depth } else some s

def run (s : LS) : List Char → Option LS
  | [] => some s
  | c :: t => (step s c).bind fun s' => run s' t

/-- The tokens of a text that ends with a newline. -/
def lex (t : List Char) : Option (List Tok) :=
  (run ⟨.bol 0, 0, []⟩ t).bind fun s => match s.mode with
    | .bol _ => some s.out.reverse
    | _ => none

/-- The logical lines: indentation and tokens. -/
def splitLines (ts : List Tok) : List Tok × List (ℕ × List Tok) :=
  ts.foldr (fun t acc => match t with
    | .line n => ([], (n, acc.1) :: acc.2)
    | t => (t :: acc.1, acc.2)) ([], [])

/-! ### Expressions and statements -/

/-- A literal with its sign. -/
structure SLit where
  neg : Bool
  lit : Lit
deriving DecidableEq

def SLit.val (x : SLit) : ℚ :=
  match x.lit with
  | .int n => if x.neg then -n else n
  | .flt q => if x.neg then -q else q

inductive Expr where
  | num (x : SLit)
  | arr (rows : List (List SLit))
  | str (s : List Char)
deriving DecidableEq

/-- Where the reader of a list of lists is: before a row or the end; in a row before an item or its end; after a minus sign; after an item; after a row. -/
inductive ArrSt where
  | rows
  | item
  | minus
  | sep
  | after
deriving DecidableEq

/-- The rest of a list of lists of numbers after its opening bracket: rows (last first), current row (last first).  Ends with the tokens after the closing bracket. -/
def pArr : ArrSt → List (List SLit) → List SLit → List Tok → Option (List (List SLit) × List Tok)
  | .rows, rs, _, .sym '[' :: ts => pArr .item rs [] ts
  | .rows, rs, _, .sym ']' :: ts => some (rs.reverse, ts)
  | .item, rs, r, .num l :: ts => pArr .sep rs (⟨false, l⟩ :: r) ts
  | .item, rs, r, .sym '-' :: ts => pArr .minus rs r ts
  | .item, rs, r, .sym ']' :: ts => pArr .after (r.reverse :: rs) [] ts
  | .minus, rs, r, .num l :: ts => pArr .sep rs (⟨true, l⟩ :: r) ts
  | .sep, rs, r, .sym ',' :: ts => pArr .item rs r ts
  | .sep, rs, r, .sym ']' :: ts => pArr .after (r.reverse :: rs) [] ts
  | .after, rs, _, .sym ',' :: ts => pArr .rows rs [] ts
  | .after, rs, _, .sym ']' :: ts => some (rs.reverse, ts)
  | _, _, _, _ => none

def pExpr : List Tok → Option Expr
  | [.num l] => some (.num ⟨false, l⟩)
  | [.sym '-', .num l] => some (.num ⟨true, l⟩)
  | [.str s] => some (.str s)
  | .name f :: .sym '(' :: .sym '[' :: ts =>
    if f = "array".toList then
      match pArr .rows [] [] ts with
      | some (rows, [.sym ')']) => some (.arr rows)
      | _ => none
    else none
  | _ => none

inductive Stmt where
  | new (v k x : List Char)
  | set (v k : List Char) (e : Expr)
  | ret (v : List Char)
deriving DecidableEq

def pStmt : List Tok → Option Stmt
  | [.name v, .sym '=', .sym '{', .str k, .sym ':', .str x, .sym '}'] => some (.new v k x)
  | .name v :: .sym '[' :: .str k :: .sym ']' :: .sym '=' :: ts => (pExpr ts).map (.set v k)
  | [.name r, .name v] => if r = "return".toList then some (.ret v) else none
  | _ => none

def pStmts (n : ℕ) : List (ℕ × List Tok) → Option (List Stmt)
  | [] => some []
  | (k, ts) :: rest =>
    if k = n then (pStmt ts).bind fun s => (pStmts n rest).map (s :: ·) else none

/-- Reserved words. -/
def keywords : List (List Char) :=
  ["False", "None", "True", "and", "as", "assert", "async", "await", "break", "class", "continue", "def", "del", "elif", "else", "except", "finally", "for", "from",
    "global", "if", "import", "in", "is", "lambda", "nonlocal", "not", "or", "pass", "raise", "return", "try", "while", "with", "yield"].map String.toList

/-- A file that defines one function: its name and the statements of its body, all with the same indentation. -/
def parse (ts : List Tok) : Option (List Char × List Stmt) :=
  match splitLines ts with
  | ([], (0, [.name d, .name f, .sym '(', .sym ')', .sym ':']) :: (n, b) :: rest) =>
    if d = "def".toList ∧ f ∉ keywords ∧ 0 < n then (pStmts n ((n, b) :: rest)).map fun ss => (f, ss) else none
  | _ => none

/-! ### Execution -/

/-- Contents of a dictionary, newest entry first. -/
abbrev Dict := List (List Char × Expr)

def Dict.get (d : Dict) (k : List Char) : Option Expr := (d.find? fun p => p.1 = k).map (·.2)

/-- Rows of an array literal have the same length. -/
def rect (rows : List (List SLit)) : Bool := rows.all fun r => r.length == (rows.headD []).length

/-- The value of an expression can be built: an array of unequal rows raises. -/
def Expr.ok : Expr → Bool
  | .arr rows => rect rows
  | _ => true

/-- The body of the function, with one dictionary variable: an assignment to an entry of another variable raises; the value returned. -/
def exec : Option (List Char × Dict) → List Stmt → Option Dict
  | _, [] => none
  | _, .new v k x :: ss => exec (some (v, [(k, .str x)])) ss
  | some (w, d), .set v k e :: ss => if v = w ∧ e.ok then exec (some (w, (k, e) :: d)) ss else none
  | some (w, d), .ret v :: _ => if v = w then some d else none
  | none, _ => none

/-- Executing the file and calling the function `f`. -/
def evalFile (f text : List Char) : Option Dict := do
  let ts ← lex text
  let p ← parse ts
  if p.1 = f then exec none p.2 else none

end Verif.SaveText
