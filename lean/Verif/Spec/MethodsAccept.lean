import Verif.Spec.MethodsFit

/-!
# Programs without divisions by integers
-/

namespace Verif.Spec

/-- The value of the program is not a constant. -/
def PyE.Varies (p : PyE) : Prop :=
  ∃ data i j data' i' j', (p.Holds data ∧ p.Def data i j) ∧ (p.Holds data' ∧ p.Def data' i' j') ∧
    p.val data i j ≠ p.val data' i' j'

/-- The numbers that are not integers, and the lists: they are passed to the routine as parameters. -/
def PyE.IsParam : PyE → Prop
  | .float _ _ _ | .list _ _ _ => True
  | _ => False

/-- One divides only by parameters, and by programs whose value is not a constant. -/
def PyE.NoFraction : PyE → Prop
  | .int _ | .float _ _ _ | .list _ _ _ | .array _ _ _ | .lazy _ _ _ _ => True
  | .m1 _ x | .mi _ x | .t _ x => x.NoFraction
  | .op o x y => x.NoFraction ∧ y.NoFraction ∧ (o = .div → y.IsParam ∨ y.Varies)
  | .m2 _ x y => x.NoFraction ∧ y.NoFraction
  | .m3 _ x y z => x.NoFraction ∧ y.NoFraction ∧ z.NoFraction

end Verif.Spec
