import Verif.Model.Schedule

/-!
# Specification of a kernel reduction

What the user asks for: `out[i] = Reduction_j F(x_i, y_j, p)`, where a variable of
category 0 (`Vi`) is indexed by the first index, category 1 (`Vj`) by the second one and
category 2 (`Pm`) is a parameter.  `tagI = 0` is a reduction over the second index, `tagI = 1`
over the first one.
-/

namespace Verif.Spec

variable {V : Type}

/-- Row of a variable of category `cat` used at output index `i` and reduction index `j`. -/
def row (tagI i j cat : Nat) : Nat :=
  if cat = 2 then 0 else if cat = tagI then i else j

/-- The values of the variables at `(i, j)`. -/
def env (vars : List VarInfo) (tagI : Nat) (args : Nat → Mem V) (i j : Nat) :
    Nat → Option (Mem V) :=
  fun ind => (vars.find? (fun v => v.ind = ind)).map
    (fun v k => args ind (row tagI i j v.cat * v.dim + k))

/-- Number of output rows for `M` points `x` and `N` points `y`. -/
def outRows (tagI M N : Nat) : Nat := if tagI = 0 then M else N

/-- Number of terms reduced for each output row. -/
def redRows (tagI M N : Nat) : Nat := if tagI = 0 then N else M

/-- The code of a formula only reads the declared entries of its variables. -/
def EvLocal (vars : List VarInfo) (ev : (Nat → Option (Mem V)) → Mem V) : Prop :=
  ∀ t t' : Nat → Option (Mem V),
    (∀ v ∈ vars, ∃ m m', t v.ind = some m ∧ t' v.ind = some m' ∧ ∀ k < v.dim, m k = m' k) →
    ev t = ev t'

/-- Well-formed variable lists: one variable per position, categories `Vi`, `Vj`, `Pm`. -/
structure WfVars (vars : List VarInfo) : Prop where
  nodup : (vars.map (·.ind)).Nodup
  cat : ∀ v ∈ vars, v.cat < 3

end Verif.Spec
