import Verif.Spec.Diff
import Verif.Model.Linear

/-!
# Degree and nesting

Syntactic conditions on formulas, for the properties of linear formulas.
-/

namespace Verif

/-- What is counted in a formula: the variables of an index, the variables of an index, a dimension and a
category, or `Factorize`. -/
inductive Mark
  | ind (i : Int)
  | var (i : Int) (d : Nat) (c : Int)
  | fact
  deriving DecidableEq

instance : Coe Int Mark := ⟨.ind⟩

/-- The variable is counted. -/
@[simp] def Mark.Hits : Mark → Int → Nat → Int → Prop
  | .ind j, i, _, _ => i = j
  | .var j e b, i, d, c => i = j ∧ d = e ∧ c = b
  | .fact, _, _, _ => False

instance (w : Mark) (i : Int) (d : Nat) (c : Int) : Decidable (w.Hits i d c) := by
  cases w <;> unfold Mark.Hits <;> infer_instance

/-- A bound of the degree of the formula as a polynomial in the variable `w`: 0 if the variable
does not occur, at most 1 if it occurs once in each term, and only in linear operations.  For
`.fact`, it is 0 if there is no `Factorize` in the formula. -/
def Expr.deg (w : Mark) : Expr → Nat
  | .var i d c => if w.Hits i d c then 1 else 0
  | .zero _ | .int _ | .rat _ _ => 0
  | .un o f => if o.linear then f.deg w else 2 * f.deg w
  | .bin o f g =>
    match o with
    | .add | .sub | .concat => max (f.deg w) (g.deg w)
    | .mul | .scalprod | .matVecMult | .vecMatMult | .tensorProd => f.deg w + g.deg w
    | .div => f.deg w + 2 * g.deg w
    | _ => 2 * (f.deg w + g.deg w)
  | .tern o f g h =>
    match o with
    | .ifElse => 2 * f.deg w + max (g.deg w) (h.deg w)
    | _ => 2 * (f.deg w + g.deg w + h.deg w)
  | .fact _ _ _ f g => 2 * (f.deg w + g.deg w) + if w = .fact then 1 else 0

/-- 0 if the variable of index `w` does not occur; otherwise, 1 plus the largest number of sums over
components (`Sum`, `Scalprod`) around one of its occurrences. -/
def Expr.dep (w : Mark) : Expr → Nat
  | .var i d c => if w.Hits i d c then 1 else 0
  | .zero _ | .int _ | .rat _ _ => 0
  | .un o f => match o with
    | .sum => f.dep w + min (f.dep w) 1
    | _ => f.dep w
  | .bin o f g => match o with
    | .scalprod => max (f.dep w) (g.dep w) + min (max (f.dep w) (g.dep w)) 1
    | _ => max (f.dep w) (g.dep w)
  | .tern _ f g h => max (max (f.dep w) (g.dep w)) (h.dep w)
  | .fact _ _ _ f g => max (f.dep w) (g.dep w)

end Verif
