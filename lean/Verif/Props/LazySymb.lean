import Verif.Model.LazySymb
import Verif.Props.Lazy

/-!
# C75: the methods of lazy tensors
-/

namespace Verif.Lazy

open Alias (Str)
open Spec (DimCheck LTree)

/-- No line break in the texts of an expression. -/
def OneLine {A : Type} : LTree A → Prop
  | .leaf _ _ _ => True
  | .symb _ _ _ => True
  | .const s => '\n' ∉ s
  | .un p q x => '\n' ∉ p ∧ '\n' ∉ q ∧ OneLine x
  | .bin p m q x y => '\n' ∉ p ∧ '\n' ∉ m ∧ '\n' ∉ q ∧ OneLine x ∧ OneLine y
  | .ter p m n q x y z => '\n' ∉ p ∧ '\n' ∉ m ∧ '\n' ∉ n ∧ '\n' ∉ q ∧ OneLine x ∧ OneLine y ∧ OneLine z

theorem digits_oneLine (n : Nat) : '\n' ∉ Nat.toDigits 10 n := by
  intro h
  have := Nat.isDigit_of_mem_toDigits (by decide) (by decide) h
  revert this
  decide

theorem text_oneLine {A : Type} (pos : A → Nat) {T : LTree A} (h : OneLine T) : '\n' ∉ T.text pos := by
  induction T with
  | leaf a d c => simp [LTree.text, digits_oneLine]
  | symb i d c => simp [LTree.text, digits_oneLine]
  | const s => exact h
  | un p q x ih => simp [LTree.text, h.1, h.2.1, ih h.2.2]
  | bin p m q x y h1 h2 => simp [LTree.text, h.1, h.2.1, h.2.2.1, h1 h.2.2.2.1, h2 h.2.2.2.2]
  | ter p m n q x y z h1 h2 h3 =>
    simp [LTree.text, h.1, h.2.1, h.2.2.1, h.2.2.2.1, h1 h.2.2.2.2.1, h2 h.2.2.2.2.2.1, h3 h.2.2.2.2.2.2]

/-- **Not C75** for the method `grad_matrix`: whatever the lazy tensors are, the formula that it makes is not the
text of an expression; it contains the description of `v` that is printed to the user, with its line breaks. -/
theorem not_C75_method (descr : Str) (x v L : LazyT) (h : gradMatrixMethod descr x v = some L) :
    "KeOps LazyTensor\n    formula: ".toList <:+: L.formula ∧
      ∀ (T : LTree Nat) (pos : Nat → Nat), OneLine T → L.formula ≠ T.text pos := by
  unfold gradMatrixMethod strOf at h
  simp only [Option.map_map, Option.map_eq_some_iff, Function.comp_apply] at h
  obtain ⟨r, -, rfl⟩ := h
  refine ⟨⟨"GradMatrix".toList ++ '(' :: x.formula ++ [','], r.1 ++ descr ++ [')'], ?_⟩, ?_⟩
  · simp [unary, closing]
  · intro T pos hT h
    have h1 := text_oneLine pos hT
    rw [← h] at h1
    exact h1 (by simp [unary, closing])

/-- What is passed to the routine for the reduction of `x.grad_matrix(x)`. -/
example : (((mkArray 100 0 [2, 1, 3] none).bind fun x => gradMatrixMethod "\n    shape: (2, 1, 3)".toList x x).bind
    fun L => reduction L none).map (fun r => String.ofList r.1) =
    some "GradMatrix(Var(0,3,0),KeOps LazyTensor\n    formula: Var(0,3,0)\n    shape: (2, 1, 3))" := by
  decide +kernel

/-- **Not C75** for the method `trace_operator` with respect to a variable that holds data: an exception is always
raised. -/
theorem not_C75_trace_data (x : LazyS) (v : LazyT) : LazyS.trace x (LazyS.data v) = none := by
  unfold LazyS.trace
  cases LazyS.binary "TraceOperator".toList false (some 1) .same none false x (LazyS.data v) <;> rfl

/-- **Not C75** for the result of `trace_operator`: every operation with a lazy tensor that holds data raises an
exception. -/
theorem not_C75_trace_then (x v z : LazyS) (h : LazyS.trace x v = some z) (y : LazyT) (op : Str) (isOp : Bool)
    (dimres : Option Nat) (check : DimCheck) (opt : Option Str) (rversion : Bool) :
    LazyS.binary op isOp dimres check opt rversion z (LazyS.data y) = none ∧
      LazyS.binary op isOp dimres check opt rversion (LazyS.data y) z = none := by
  unfold LazyS.trace at h
  obtain ⟨r, -, h⟩ := Option.bind_eq_some_iff.1 h
  obtain ⟨i, -, rfl⟩ := Option.map_eq_some_iff.1 h
  exact ⟨rfl, rfl⟩

/-- A trace that is accepted: that of the product of a lazy tensor by the symbolic variable. -/
example : ((mkArray 100 0 [2, 1, 3] none).bind fun x =>
    (LazyS.binary ['*'] true none .sameor1 none false (LazyS.data x) (LazyS.symb 0 3 0)).bind fun m =>
      (LazyS.trace m (LazyS.symb 0 3 0)).bind fun z => reduction z.lazy none).map
        (fun r => (String.ofList r.1, r.2.2.map LTensor.src)) =
    some ("TraceOperator((Var(0,3,0) * Var(-0-1,3,0)), Var(-0-1,3,0))", [0]) := by
  decide +kernel

end Verif.Lazy
