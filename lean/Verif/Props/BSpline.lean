import Verif.Proofs.BSpline

/-!
# C45: B-splines

`BSpline(knots, x, order)` (`keopscore/formulas/maths/BSpline.py`): which arguments are accepted, and the value that is
computed.  The code can only be generated in single precision, so that the property fails in double precision.
-/

namespace Verif.BSpline

/-- The operation is accepted iff the order is not negative, `x` is a scalar and there are at least `order + 2` knots; its
dimension is then the number of basis functions. -/
theorem C45_accepts (order : Int) (nk nx m : Nat) :
    dim order nk nx = some m ↔ 0 ≤ order ∧ nx = 1 ∧ order + 2 ≤ nk ∧ (m : Int) = nk - order - 1 := by
  unfold dim init
  by_cases h1 : order < 0
  · rw [if_pos h1]
    exact ⟨fun h => absurd h.symm (Option.some_ne_none m), fun h => by omega⟩
  rw [if_neg h1]
  by_cases h2 : nx ≠ 1
  · rw [if_pos h2]
    exact ⟨fun h => absurd h.symm (Option.some_ne_none m), fun h => absurd h.2.1 h2⟩
  rw [if_neg h2]
  by_cases h3 : (nk : Int) < order + 2
  · rw [if_pos h3]
    exact ⟨fun h => absurd h.symm (Option.some_ne_none m), fun h => by omega⟩
  rw [if_neg h3]
  show extractInit (nk - 1) 0 (nk - order - 1) = some m ↔ _
  unfold extractInit
  rw [if_neg (by omega), Option.some.injEq]
  omega

example : dim 3 9 1 = some 5 := by decide
example : dim 3 4 1 = none := by decide

/-- In single precision, for knots in increasing order (repeated knots are allowed), every order and every point, the code
computes the basis functions given by the Cox–de Boor recursion, whatever the arrays hold initially. -/
theorem C45_value_partial {M : CMath} (hM : M.Exact) {order : Nat} {knots out buf : CArr} {x : ℝ}
    (hs : knots.Pairwise (· ≤ ·)) (hk : order + 2 ≤ knots.length) (ho : out.length = knots.length - order - 1)
    (hb : buf.length = knots.length - 1) :
    code M .float order out buf knots [x] =
      .ok ((List.range (knots.length - order - 1)).map (basis (knot knots) x order)) := by
  obtain ⟨z, h1, h2⟩ := op_vec (M := M) (t := knot knots) (n := knots.length) (d := buf.length) (x := x)
    (z := fun k => buf.getD k 0) hM (mono_knot hs) (order := order) (by omega) hk rfl
  have e1 : vec knots.length (knot knots) = knots := (vec_of_list knots).symm
  rw [e1, ← vec_of_list buf] at h1
  unfold code
  rw [h1, ok_bind, vec_of_list out, vec_length, vectCopyAt_vec (by omega) (by omega), ho]
  congr 1
  refine vec_congr fun k hk => ?_
  rw [if_pos (by omega), Nat.zero_add, Nat.sub_zero, h2 k (by omega)]

/-- The values are not negative. -/
theorem C45_nonneg {knots : List ℝ} (hs : knots.Pairwise (· ≤ ·)) (x : ℝ) {order i : Nat}
    (hi : i + order + 1 < knots.length) : 0 ≤ basis (knot knots) x order i :=
  basis_nonneg (mono_knot hs) hi

/-- The function number `i` vanishes outside of `[t_i, t_(i+order+1))`. -/
theorem C45_support {knots : List ℝ} (hs : knots.Pairwise (· ≤ ·)) (x : ℝ) {order i : Nat}
    (hi : i + order + 1 < knots.length) (h : x < knot knots i ∨ knot knots (i + order + 1) ≤ x) :
    basis (knot knots) x order i = 0 :=
  basis_support (mono_knot hs) hi fun h' => by
    rcases h with h | h
    · exact absurd h'.1 (not_le.2 h)
    · exact absurd h'.2 (not_lt.2 h)

/-- Inside the base interval the values sum to one. -/
theorem C45_sum {knots : List ℝ} (hs : knots.Pairwise (· ≤ ·)) {x : ℝ} {order : Nat}
    (hk : 2 * order + 1 < knots.length) (h1 : knot knots order ≤ x)
    (h2 : x < knot knots (knots.length - 1 - order)) :
    ((List.range (knots.length - order - 1)).map (basis (knot knots) x order)).sum = 1 := by
  have := basis_sum (mono_knot hs) hk h1 h2
  rw [← this, show knots.length - order - 1 = knots.length - 1 - order by omega]
  rfl

/-- In double precision, and in half precision, no code is generated. -/
theorem not_C45_double (M : CMath) (order : Nat) (out buf knots inX : CArr) :
    code M .double order out buf knots inX = .error .keops ∧ code M .half2 order out buf knots inX = .error .keops :=
  ⟨rfl, rfl⟩

/-- The hypotheses hold for knots with repetitions; at `x = 1` the quadratic functions are not trivial. -/
example : ([0, 0, 0, 1, 3, 3, 3] : List ℝ).Pairwise (· ≤ ·) ∧
    basis (knot [0, 0, 0, 1, 3, 3, 3]) 1 2 1 = 2 / 3 ∧ basis (knot [0, 0, 0, 1, 3, 3, 3]) 1 2 2 = 1 / 3 ∧
    knot [0, 0, 0, 1, 3, 3, 3] 2 ≤ 1 ∧ 1 < knot [0, 0, 0, 1, 3, 3, 3] 4 := by
  refine ⟨by simp, ?_, ?_, ?_, ?_⟩ <;> norm_num [basis, knot, quot]

end Verif.BSpline
