import Verif.Model.Simplify

/-!
# Substitution and factorization

Model of `Operation.replace` and of `keopscore/formulas/factorization/Factorize.py`.
-/

namespace Verif

namespace Expr

/-- Indices of the variables, `GetInds(formula.Vars_)` (`Operation.py:32-38`,
`utils/code_gen_utils.py:526-528`).  Simplification: a list with repetitions instead of a sorted list
without them (only membership and extremal elements are used). -/
def inds : Expr → List Int
  | .var i _ _ => [i]
  | .zero _ | .int _ | .rat _ _ => []
  | .un _ f => f.inds
  | .bin _ f g => f.inds ++ g.inds
  | .tern _ f g h => f.inds ++ (g.inds ++ h.inds)
  | .fact _ _ _ f g => f.inds ++ g.inds

/-- The variables, attribute `Vars_`, `Operation.py:32-38`, `Var.py:39`. -/
def vars : Expr → List (Int × Nat × Int)
  | .var i d c => [(i, d, c)]
  | .zero _ | .int _ | .rat _ _ => []
  | .un _ f => f.vars
  | .bin _ f g => f.vars ++ g.vars
  | .tern _ f g h => f.vars ++ (g.vars ++ h.vars)
  | .fact _ _ _ f g => f.vars ++ g.vars

/-- `Operation.replace`, `Operation.py:52-59`: all the occurrences of `old` become `new`.  The classes
are called again on the new children, without simplification; their checks depend only on the dimensions
of the children, which do not change when `new` has the dimension of `old` (as in all the calls of the
code), so that they are not repeated here. -/
def replace (e old new : Expr) : Expr :=
  match e with
  | .var i d c => if .var i d c = old then new else .var i d c
  | .zero d => if .zero d = old then new else .zero d
  | .int n => if .int n = old then new else .int n
  | .rat p q => if .rat p q = old then new else .rat p q
  | .un o f => if .un o f = old then new else .un o (f.replace old new)
  | .bin o f g => if .bin o f g = old then new else .bin o (f.replace old new) (g.replace old new)
  | .tern o f g h => if .tern o f g h = old then new else
      .tern o (f.replace old new) (g.replace old new) (h.replace old new)
  | .fact i d c f g => if .fact i d c f g = old then new else
      .fact i d c (f.replace old new) (g.replace old new)

/-- The counter of `replace_and_count`, `Operation.py:61-64`. -/
def count (e old : Expr) : Nat :=
  match e with
  | .var i d c => if .var i d c = old then 1 else 0
  | .zero d => if .zero d = old then 1 else 0
  | .int n => if .int n = old then 1 else 0
  | .rat p q => if .rat p q = old then 1 else 0
  | .un o f => if .un o f = old then 1 else f.count old
  | .bin o f g => if .bin o f g = old then 1 else f.count old + g.count old
  | .tern o f g h => if .tern o f g h = old then 1 else f.count old + g.count old + h.count old
  | .fact i d c f g => if .fact i d c f g = old then 1 else f.count old + g.count old

/-- Attribute `children`. `Operation.py:29`. -/
def children : Expr → List Expr
  | .un _ f => [f]
  | .bin _ f g => [f, g]
  | .tern _ f g h => [f, g, h]
  | .fact _ _ _ f g => [f, g]
  | _ => []

/-- Attribute `defined_temp_Vars`, `Factorize.py:22-25` (empty for the other classes, which do not have
it). -/
def tempVars : Expr → List (Int × Nat × Int)
  | .fact i d c f _ => f.tempVars ++ [(i, d, c)]
  | _ => []

end Expr

/-- `Factorize_`, `Factorize.py:87-94`; the new temporary variable is `Var(i, d, c)`. -/
def factorize_ (g : Expr) (i : Int) (d : Nat) (c : Int) : Expr → Expr
  | .fact j d' c' f h =>
    if (Expr.fact j d' c' f h).tempVars.any (fun v => decide (v ∈ g.vars)) then
      .fact j d' c' (factorize_ g i d c f) h
    else .fact i d c (.fact j d' c' f h) g
  | e => .fact i d c e g

/-- New negative index, `Factorize.py:101-103`. -/
def newInd (formula : Expr) : Int :=
  let minind := match formula.inds.min? with
    | some m => m
    | none => 0
  if minind ≥ 0 then -1 else minind - 1

/-- `type(g) in (Var, Zero, IntCst_Impl)`, `Factorize.py:98`. -/
def Expr.isAtom : Expr → Bool
  | .var _ _ _ | .zero _ | .int _ => true
  | _ => false

/-- `Factorize`, `Factorize.py:97-109`. -/
def factorize (formula g : Expr) : Expr :=
  if g.isAtom then formula
  else
    let i := newInd formula
    let v := Expr.var i g.dim 3
    if formula.count g > 1 then factorize_ g i g.dim 3 (formula.replace g v) else formula

/-- `RecSearch`, `Factorize.py:113-121`.  `for child in g.children` is unrolled for each number of
children. -/
def recSearch (formula : Expr) : Expr → Expr
  | .un o f =>
    let r := factorize formula (.un o f)
    if r ≠ formula then r else recSearch formula f
  | .bin o f g =>
    let r := factorize formula (.bin o f g)
    if r ≠ formula then r else
    let r := recSearch formula f
    if r ≠ formula then r else recSearch formula g
  | .tern o f g h =>
    let r := factorize formula (.tern o f g h)
    if r ≠ formula then r else
    let r := recSearch formula f
    if r ≠ formula then r else
    let r := recSearch formula g
    if r ≠ formula then r else recSearch formula h
  | .fact i d c f g =>
    let r := factorize formula (.fact i d c f g)
    if r ≠ formula then r else
    let r := recSearch formula f
    if r ≠ formula then r else recSearch formula g
  | e => factorize formula e

/-- `AutoFactorize`, `Factorize.py:112-126`; `n` bounds the number of factorizations. -/
def autoFactorize : Nat → Expr → Except Err Expr
  | 0, _ => .error .fuel
  | n + 1, formula =>
    let r := recSearch formula formula
    if r ≠ formula then autoFactorize n r else .ok formula

end Verif
