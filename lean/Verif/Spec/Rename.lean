import Verif.Spec.Diff

/-!
# Specification of the renumbering of variables

`ρ (i, c)` is the new number and the new category of the variable of category `c` whose number is `i`. The dimension
of a variable is kept.
-/

namespace Verif.Spec

/-- The formula with the new numbers. -/
def _root_.Verif.Expr.rename (ρ : Int × Int → Int × Int) : Expr → Expr
  | .var i d c => .var (ρ (i, c)).1 d (ρ (i, c)).2
  | .zero d => .zero d
  | .int n => .int n
  | .rat p q => .rat p q
  | .un o f => .un o (f.rename ρ)
  | .bin o f g => .bin o (f.rename ρ) (g.rename ρ)
  | .tern o f g h => .tern o (f.rename ρ) (g.rename ρ) (h.rename ρ)
  | .fact i d c f g => .fact (ρ (i, c)).1 d (ρ (i, c)).2 (f.rename ρ) (g.rename ρ)

/-- The formula of the user with the new numbers. -/
def _root_.Verif.Term.rename (ρ : Int × Int → Int × Int) : Term → Term
  | .var i d c => .var (ρ (i, c)).1 d (ρ (i, c)).2
  | .zero d => .zero d
  | .int n => .int n
  | .rat p q => .rat p q
  | .rdiv n f => .rdiv n (f.rename ρ)
  | .rpow f m => .rpow (f.rename ρ) m
  | .un o f => .un o (f.rename ρ)
  | .bin o f g => .bin o (f.rename ρ) (g.rename ρ)
  | .tern o f g h => .tern o (f.rename ρ) (g.rename ρ) (h.rename ρ)
  | .intInv n => .intInv n
  | .sqNorm2 f => .sqNorm2 (f.rename ρ)
  | .sqDist f g => .sqDist (f.rename ρ) (g.rename ρ)
  | .norm2 f => .norm2 (f.rename ρ)
  | .normalize f => .normalize (f.rename ρ)
  | .sqNormIso s f => .sqNormIso (s.rename ρ) (f.rename ρ)
  | .sqNormDiag s f => .sqNormDiag (s.rename ρ) (f.rename ρ)
  | .symSqNorm a x => .symSqNorm (a.rename ρ) (x.rename ρ)
  | .weightedSqNorm a x => .weightedSqNorm (a.rename ρ) (x.rename ρ)
  | .weightedSqDist s f g => .weightedSqDist (s.rename ρ) (f.rename ρ) (g.rename ρ)

/-- The variable with its new number. -/
def _root_.Verif.VarId.rename (ρ : Int × Int → Int × Int) (v : VarId) : VarId := ⟨(ρ (v.ind, v.cat)).1, v.dim, (ρ (v.ind, v.cat)).2⟩

/-- The numbers and categories after a renumbering `σ` of the arguments of a routine. -/
def renum (σ : Int → Int) : Int × Int → Int × Int := fun p => (σ p.1, p.2)

/-- The numbers and categories after an exchange of `i` and `j`: the variables `Vi` become `Vj` and conversely. -/
def swapIJ : Int × Int → Int × Int := fun p => (p.1, if p.2 = 0 then 1 else if p.2 = 1 then 0 else p.2)

end Verif.Spec
