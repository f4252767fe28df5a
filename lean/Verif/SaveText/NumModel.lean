import Mathlib.Data.Int.Log
import Mathlib.Data.Rat.Floor
import Mathlib.Data.List.DropRight

/-!
# Numbers as text: the conversions `%d`, `%.9g`, `%.4f` and Python's numeric literals

`savecase` writes numbers with these conversions (savecase.py:172-286); `loadcase` reads them back as literals of Python source (loadcase.py:109-110).
A float is a rational number, an infinity or not a number; the sign of zero is not modelled.  Reading a decimal literal gives its exact value: the rounding to the
nearest double is not modelled.  Python's conversions are those of C: correctly rounded, ties to even.
-/

namespace Verif.SaveText

/-- A float. -/
inductive Num where
  | fin (q : ℚ)
  | inf (neg : Bool)
  | nan
deriving DecidableEq

/-- Nearest integer, ties to even. -/
def rhe (x : ℚ) : ℤ :=
  if x - ⌊x⌋ < 1 / 2 then ⌊x⌋
  else if 1 / 2 < x - ⌊x⌋ then ⌊x⌋ + 1
  else if Even ⌊x⌋ then ⌊x⌋ else ⌊x⌋ + 1

/-- Towards zero. -/
def truncQ (x : ℚ) : ℤ := if 0 ≤ x then ⌊x⌋ else ⌈x⌉

/-- The character of a digit. -/
def dig (d : ℕ) : Char := Char.ofNat (48 + d)

/-- The last `k` decimal digits of `n`. -/
def digs : ℕ → ℕ → List Char
  | 0, _ => []
  | k + 1, n => digs k (n / 10) ++ [dig (n % 10)]

/-- A natural number in decimal. -/
def dec (n : ℕ) : List Char := digs (Nat.log 10 n + 1) n

/-- Trailing zeros removed. -/
def stripZ (l : List Char) : List Char := l.rdropWhile (· == '0')

/-- The point and what follows it, if anything. -/
def frac (l : List Char) : List Char := if l = [] then [] else '.' :: l

/-- Nine significant digits `m` and decimal exponent `X` of `x > 0`, after rounding: `x ≈ m · 10^(X-8)`. -/
def sci (x : ℚ) : ℕ × ℤ :=
  if rhe (x / 10 ^ (Int.log 10 x - 8)) < 10 ^ 9 then ((rhe (x / 10 ^ (Int.log 10 x - 8))).toNat, Int.log 10 x) else (10 ^ 8, Int.log 10 x + 1)

/-- The exponent: sign and at least two digits. -/
def expText (X : ℤ) : List Char := (if X < 0 then '-' else '+') :: (if X.natAbs < 100 then digs 2 X.natAbs else dec X.natAbs)

/-- `'%.9g' % x` for `x > 0` with digits `m`, exponent `X`. -/
def gText (m : ℕ) (X : ℤ) : List Char :=
  if -4 ≤ X ∧ X < 9 then
    if 0 ≤ X then (digs 9 m).take (X.toNat + 1) ++ frac (stripZ ((digs 9 m).drop (X.toNat + 1)))
    else '0' :: '.' :: (List.replicate (-X - 1).toNat '0' ++ stripZ (digs 9 m))
  else (digs 9 m).take 1 ++ frac (stripZ ((digs 9 m).drop 1)) ++ 'e' :: expText X

/-- `'%.9g' % x` for finite `x ≥ 0`. -/
def gPos (x : ℚ) : List Char := if x = 0 then ['0'] else gText (sci x).1 (sci x).2

/-- `'%.4f' % x` for finite `x ≥ 0`. -/
def fPos (x : ℚ) : List Char := dec ((rhe (x * 10 ^ 4)).toNat / 10 ^ 4) ++ '.' :: digs 4 (rhe (x * 10 ^ 4)).toNat

/-- A minus sign for negative numbers. -/
def signed (f : ℚ → List Char) (x : ℚ) : List Char := if x < 0 then '-' :: f (-x) else f x

/-- `'%.9g' % x`. -/
def fmtG : Num → List Char
  | .fin q => signed gPos q
  | .inf false => ['i', 'n', 'f']
  | .inf true => ['-', 'i', 'n', 'f']
  | .nan => ['n', 'a', 'n']

/-- `'%.4f' % x`. -/
def fmtF : Num → List Char
  | .fin q => signed fPos q
  | .inf false => ['i', 'n', 'f']
  | .inf true => ['-', 'i', 'n', 'f']
  | .nan => ['n', 'a', 'n']

/-- `'%d' % x`: towards zero; an infinity or a NaN raises. -/
def fmtD : Num → Option (List Char)
  | .fin q => some (if truncQ q < 0 then '-' :: dec (truncQ q).natAbs else dec (truncQ q).natAbs)
  | _ => none

/-- A numeric literal: an integer without, a float with point or exponent. -/
inductive Lit where
  | int (n : ℕ)
  | flt (q : ℚ)
deriving DecidableEq

/-- The value of a literal. -/
def Lit.val : Lit → ℚ
  | .int n => n
  | .flt q => q

/-- The literal is an integer. -/
def Lit.isInt : Lit → Bool
  | .int _ => true
  | .flt _ => false

/-- Value of a digit sequence. -/
def dval (l : List Char) : ℕ := l.foldl (fun a c => 10 * a + (c.toNat - 48)) 0

/-- The exponent of a literal: optional sign, at least one digit, nothing after it. -/
def readExp : List Char → Option ℤ
  | '+' :: ds => if ds ≠ [] ∧ ds.all Char.isDigit then some (dval ds) else none
  | '-' :: ds => if ds ≠ [] ∧ ds.all Char.isDigit then some (-(dval ds : ℤ)) else none
  | ds => if ds ≠ [] ∧ ds.all Char.isDigit then some (dval ds) else none

/-- A numeric literal that begins with a digit; an integer has no leading zeros (Python allows a sequence of zeros). -/
def readNum (l : List Char) : Option Lit :=
  match l.takeWhile Char.isDigit, l.dropWhile Char.isDigit with
  | [], _ => none
  | a, [] => if a.head? = some '0' ∧ 1 < a.length then none else some (.int (dval a))
  | a, '.' :: r =>
    match r.dropWhile Char.isDigit with
    | [] => some (.flt (dval (a ++ r.takeWhile Char.isDigit) / 10 ^ (r.takeWhile Char.isDigit).length))
    | 'e' :: s => (readExp s).map fun x => .flt (dval (a ++ r.takeWhile Char.isDigit) / 10 ^ (r.takeWhile Char.isDigit).length * 10 ^ x)
    | _ => none
  | a, 'e' :: s => (readExp s).map fun x => .flt (dval a * 10 ^ x)
  | _, _ => none

end Verif.SaveText
