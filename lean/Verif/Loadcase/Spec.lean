import Verif.Loadcase.Model

/-!
# Specification: objects that can be reached, equality of contents
-/

namespace Verif.Loadcase

open CaseIO

/-- `b` can be reached from `a` through entries of dictionaries. -/
inductive Reach (h : Heap) : ℕ → ℕ → Prop where
  | refl (a : ℕ) : Reach h a a
  | step {a b c : ℕ} {k : String} : field h a k = some b → Reach h b c → Reach h a c

/-- Objects `a` in memory `h` and `a'` in memory `h'` look the same down to depth `n`. -/
def EqTo (h h' : Heap) : ℕ → ℕ → ℕ → Prop
  | 0, _, _ => True
  | n + 1, a, a' =>
    value h a = value h' a' ∧ ((entries h a).isSome = (entries h' a').isSome) ∧
      ∀ k, (field h a k = none ∧ field h' a' k = none) ∨ ∃ b b', field h a k = some b ∧ field h' a' k = some b' ∧ EqTo h h' n b b'

/-- Equal contents, whatever is nested. -/
def DeepEq (h h' : Heap) (a a' : ℕ) : Prop := ∀ n, EqTo h h' n a a'

/-- The dictionary is not part of itself. -/
def NotNested (h : Heap) (r : ℕ) : Prop := ∀ k b, field h r k = some b → ¬ Reach h b r

/-- Every reference stored in memory is one to an object. -/
def Valid (h : Heap) : Prop := ∀ (i : ℕ) (d : List (String × ℕ)), h[i]? = some (.dict d) → ∀ q ∈ d, q.2 < h.length

end Verif.Loadcase
