import Verif.Proofs.LazyDot
import Verif.Props.Tensor
import Mathlib.Data.Complex.Basic

/-!
# C78: contractions of lazy tensors announce the dimension of their result

Property C78: `x.keops_tensordot(y, dimfa, dimfb, contfa, contfb, permute)` and `x.keops_kron(y, dimfself, dimfother)` give
lazy tensors whose formula is the contraction asked for, with the arguments asked for, and whose dimension is the number
of entries of its value. With C34 the values are those of the contraction.
-/

namespace Verif.LazyDot

open Alias (Str)
open Spec
open TensorDot (ints)

/-- **C78** for `keops_tensordot` of real lazy tensors (also with an array as second operand): if KeOps accepts the
contraction (`C34_accepts`) and no dimension is 0, the method returns a lazy tensor whose formula is `TensorDot` of the two
formulas with the lists asked for, and whose dimension is the number of entries of the result, i.e. the length of the arrays
that the code of `C34_value_partial` fills. -/
theorem C78_tensordot_partial {x : LT} {y : Other} {dimsA dimsB : List Nat} {ca cb : List Int} {o : Option (List Int)}
    {t : TensorDot.T} (hx : x.isC = false) (hy : y.isC = false) (h0 : 0 < x.ndim ∧ 0 < y.lt.ndim)
    (h : TensorDot.init x.ndim y.lt.ndim dimsA dimsB ca cb o = some t) :
    ∃ r, tensordot x y (.seq (ints dimsA)) (.seq (ints dimsB)) (.seq ca) (.seq cb) (o.toList.map .seq) = .ok r ∧
      r.ndim = (outShape dimsA dimsB ca cb (permOf dimsA dimsB ca cb o)).prod ∧ r.ndim = t.dim ∧
      Calls r.formula "TensorDot".toList x.formula y.lt.formula ([ints dimsA, ints dimsB, ca, cb] ++ o.toList) := by
  have hd := dimres_eq h
  obtain ⟨e1, e2, perm, h3, h4, h5, h6⟩ := TensorDot.init_some h
  have ht : t.dim = (outShape dimsA dimsB ca cb (permOf dimsA dimsB ca cb o)).prod := by rw [h6, ← h3.eq]; rfl
  have hpos : (outShape dimsA dimsB ca cb (permOf dimsA dimsB ca cb o)).prod ≠ 0 := by
    rw [← h3.eq, h4.prodK]
    have hA := h4.prodA
    have hB := h4.prodB
    intro hz
    rcases Nat.mul_eq_zero.mp hz with hz | hz
    · rw [hz] at hA; simp at hA; omega
    · rw [hz] at hB; simp at hB; omega
  unfold tensordot
  rw [if_neg (by simp [hx]), if_neg (by simp [hy]), hd]
  refine ⟨_, rfl, ?_, ?_, optArg ([ints dimsA, ints dimsB, ca, cb] ++ o.toList), ?_, read_optArg _ _⟩
  · simp only [binary]; rw [if_neg hpos]
  · simp only [binary]; rw [if_neg hpos, ht]
  · simp only [binary]
    congr 4
    simp [Arg.toList, Function.comp_def]

/-- **C78** for `keops_kron` of two real lazy tensors. -/
theorem C78_kron_partial {x y : LT} {dimsA dimsB : List Nat} {t : TensorDot.T} (hx : x.isC = false) (hy : y.isC = false)
    (h0 : 0 < x.ndim ∧ 0 < y.ndim) (h : TensorDot.kron x.ndim y.ndim dimsA dimsB = some t) :
    ∃ r, kron x (.lazy y) (.seq (ints dimsA)) (.seq (ints dimsB)) = .ok r ∧ r.isC = false ∧
      r.ndim = (List.zipWith (· * ·) dimsA dimsB).prod ∧ r.ndim = t.dim ∧
      Calls r.formula "Kron".toList x.formula y.formula [ints dimsA, ints dimsB] := by
  obtain ⟨hl, e1, e2⟩ := TensorDot.C34_kron_accepts.mp ⟨t, h⟩
  have ht : t.dim = x.ndim * y.ndim := by
    unfold TensorDot.kron at h
    rw [if_neg (by simpa using hl)] at h
    obtain ⟨ea, eb, perm, h3, h4, -, h6⟩ := TensorDot.init_some h
    have hK := h4.prodK
    have hA := h4.prodA
    have hB := h4.prodB
    simp only [gather, List.map_nil, List.prod_nil, mul_one] at hA hB
    have : t.dim = (outShape dimsA dimsB [] [] perm).prod := by rw [h6]; rfl
    rw [this, hK, ea, eb, hA, hB]
  have hz : (List.zipWith (· * ·) dimsA dimsB).prod = dimsA.prod * dimsB.prod := by
    clear h e1 e2 ht h0
    induction dimsA generalizing dimsB with
    | nil => cases dimsB with
      | nil => rfl
      | cons b l => simp at hl
    | cons a l ih => cases dimsB with
      | nil => simp at hl
      | cons b m =>
        simp only [List.zipWith_cons_cons, List.prod_cons]
        rw [ih (by simpa using hl)]
        exact Nat.mul_mul_mul_comm a b l.prod m.prod
  unfold kron
  rw [if_neg (by simp [Other.isC, hy])]
  have hn : ¬ (Other.lazy y).ndim * x.ndim = 0 := by
    show ¬ y.ndim * x.ndim = 0
    have := Nat.mul_pos h0.2 h0.1
    omega
  refine ⟨_, rfl, ?_, ?_, ?_, optArg [ints dimsA, ints dimsB], rfl, read_optArg _ _⟩
  · simp [binary, hx, hy, Other.lt]
  · simp only [binary]
    rw [if_neg hn, hz, ← e1, ← e2]
    exact Nat.mul_comm _ _
  · simp only [binary]
    rw [if_neg hn, ht]
    exact Nat.mul_comm _ _

/-! ## Refutations -/

/-- A lazy tensor with one variable. -/
def var (n d : Nat) (c : Nat) : LT :=
  ⟨"Var(".toList ++ Nat.toDigits 10 n ++ [','] ++ Nat.toDigits 10 d ++ [','] ++ Nat.toDigits 10 c ++ [')'], d, false⟩

/-- The shapes are not compared with the dimensions of the operands: a tensor of dimension 4 is announced for operands of
dimensions 5 and 6, which KeOps refuses when the tensor is reduced. -/
theorem not_C78_shapes : ∃ r, tensordot (var 0 5 0) (.lazy (var 1 6 1)) (.seq [2, 3]) (.seq [3, 2]) (.seq [1]) (.seq [0])
    [] = .ok r ∧ r.ndim = 4 ∧ ¬ ∃ t, TensorDot.init 5 6 [2, 3] [3, 2] [1] [0] none = some t :=
  ⟨_, rfl, rfl, fun ⟨t, h⟩ => by
    have := TensorDot.C34_accepts.mp ⟨t, h⟩
    exact absurd this.1 (by decide)⟩

/-- Negative axes, as in `torch.tensordot`, are counted from the end by the method, and refused when the tensor is
reduced. -/
theorem not_C78_negative : ∃ r, tensordot (var 0 6 0) (.lazy (var 1 6 1)) (.seq [2, 3]) (.seq [3, 2]) (.seq [-1])
    (.seq [0]) [] = .ok r ∧ r.ndim = 4 ∧ ¬ ∃ t, TensorDot.init 6 6 [2, 3] [3, 2] [-1] [0] none = some t :=
  ⟨_, rfl, rfl, fun ⟨t, h⟩ => by
    have := TensorDot.C34_accepts.mp ⟨t, h⟩
    exact absurd (this.2.2.1.2 (-1) (by simp)).1 (by decide)⟩

/-- Integers are converted to lists in the text, but an integer for the contracted axes raises `TypeError`, although KeOps
accepts the contraction. -/
theorem not_C78_integer : (∃ t, TensorDot.init 6 3 [2, 3] [3] [1] [0] none = some t) ∧
    tensordot (var 0 6 0) (.lazy (var 1 3 1)) (.seq [2, 3]) (.int 3) (.int 1) (.int 0) [] = .error .type :=
  ⟨TensorDot.C34_accepts.mpr (by decide +kernel), rfl⟩

/-- With an array of 3 axes instead of a lazy tensor, `keops_kron` announces 3 times the dimension of the first operand:
here 6, where the value has 10 entries. -/
theorem not_C78_array : ∃ r t, kron (var 0 2 0) (.array 3 (var 1 5 1)) (.seq [2]) (.seq [5]) = .ok r ∧
    TensorDot.kron 2 5 [2] [5] = some t ∧ r.ndim = 6 ∧ t.dim = 10 := by
  obtain ⟨t, ht⟩ := TensorDot.C34_kron_accepts.mpr (⟨rfl, rfl, rfl⟩ :
    [2].length = [5].length ∧ 2 = [2].prod ∧ 5 = [5].prod)
  exact ⟨_, t, rfl, ht, rfl, (TensorDot.C34_kron_partial ht (by simp)).1⟩

/-- The complex numbers read in a result. `common/lazy_tensor.py:2821-2823`. -/
noncomputable def asComplex (out : CArr) (k : Nat) : ℂ := ⟨out.getD (2 * k) 0, out.getD (2 * k + 1) 0⟩

/-- `keops_kron` refuses complex lazy tensors as second operand but not as first one: for `z = [i]` and `y = [1, 0]` the
result is a complex lazy tensor equal to `[0, 1]` instead of `[i, 0]`. -/
theorem not_C78_complex : (∀ x y : LT, y.isC = true → ∀ a b, kron x (.lazy y) a b = .error .value) ∧
    ∃ r t, kron { var 0 2 0 with isC := true } (.lazy (var 1 2 1)) (.seq [2]) (.seq [2]) = .ok r ∧ r.isC = true ∧
      TensorDot.kron 2 2 [2] [2] = some t ∧ r.ndim = t.dim ∧
      ∃ out, TensorDot.op t [0, 0, 0, 0] [0, 1] [1, 0] = .ok out ∧ asComplex [0, 1] 0 = Complex.I ∧
        asComplex out 0 ≠ Complex.I * 1 ∧ asComplex out 1 ≠ Complex.I * 0 := by
  refine ⟨fun x y hy a b => by unfold kron; rw [if_pos (by simpa [Other.isC] using hy)], ?_⟩
  obtain ⟨t, ht⟩ := TensorDot.C34_kron_accepts.mpr (⟨rfl, rfl, rfl⟩ :
    [2].length = [2].length ∧ 2 = [2].prod ∧ 2 = [2].prod)
  obtain ⟨hd, hv⟩ := TensorDot.C34_kron_partial ht (by simp)
  obtain ⟨out, h1, h2, h3⟩ := hv [0, 0, 0, 0] [0, 1] [1, 0] (by rw [hd]; rfl) rfl rfl
  refine ⟨_, t, rfl, rfl, ht, by rw [hd]; rfl, out, h1, ?_, ?_, ?_⟩
  · apply Complex.ext <;> simp [asComplex]
  · intro h
    have e := h3 [0] [1] (by simp [Arr.Idx]) (by simp [Arr.Idx])
    have := congrArg Complex.im h
    simp [asComplex] at this
    simp [entry, ravel, kronIdx] at e
    rw [e] at this
    norm_num at this
  · intro h
    have e := h3 [1] [0] (by simp [Arr.Idx]) (by simp [Arr.Idx])
    have := congrArg Complex.re h
    simp [asComplex] at this
    simp [entry, ravel, kronIdx] at e
    rw [e] at this
    norm_num at this

/-! ## The hypotheses are met -/

/-- The product of a `2 × 3` matrix and of a `3 × 2` matrix, transposed. -/
example : ∃ t, (var 0 6 0).isC = false ∧ (Other.lazy (var 1 6 1)).isC = false ∧
    TensorDot.init (var 0 6 0).ndim (Other.lazy (var 1 6 1)).lt.ndim [2, 3] [3, 2] [1] [0] (some [1, 0]) = some t := by
  obtain ⟨t, ht⟩ := (TensorDot.C34_accepts (da := 6) (db := 6) (dimsA := [2, 3]) (dimsB := [3, 2]) (ca := [1])
    (cb := [0]) (o := some [1, 0])).mpr (by decide +kernel)
  exact ⟨t, rfl, rfl, ht⟩

/-- The text of its formula. -/
example : ∃ r, tensordot (var 0 6 0) (.lazy (var 1 6 1)) (.seq [2, 3]) (.seq [3, 2]) (.seq [1]) (.seq [0]) [.seq [1, 0]] =
    .ok r ∧ r.formula = "TensorDot(Var(0,6,0), Var(1,6,1), [2,3], [3,2], [1], [0], [1,0])".toList ∧ r.ndim = 4 :=
  ⟨_, rfl, by decide +kernel, rfl⟩

end Verif.LazyDot
