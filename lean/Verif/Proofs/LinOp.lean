import Verif.Model.LinOp
import Verif.Spec.LinOp
import Verif.Props.MethodsRed

/-!
# Lemmas on products with lazy tensors
-/

namespace Verif.Lazy

open Spec (LExpr PyE PyOp PyRed rowsOut rowsRed rowIJ)

/-- The products `K @ v`, for any number `N` of rows of `v`: a single row is used for all the indices. -/
theorem matmul_value {K : PyE} {oid src : Nat} {shape : List Nat} {N d : Nat}
    (hv : shape = [N] ∧ d = 1 ∨ ∃ vb, shape = vb ++ [N, d]) (hp : ProperRed .sum (matProg K oid src shape)) {c : RedCall}
    (h : matmul K oid src shape = some c) {ex : Expr} (hx : Runs c.f ex) {m n : Nat} {data : Data}
    (hh : K.Holds data) (hd : ∀ i < m, ∀ j < n, K.Def data i j) (P : PostNum ℝ) (sch : SumScheme) :
    K.dim = 1 ∧ c.cls = .sum ∧ ∃ S, getScheme (sumRed (V := ℝ) ex.dim) sch = some S ∧ ∀ js i row,
      OutRow .sum (matProg K oid src shape) id id c ex (sumRed ex.dim) S data m n 1 js i row →
      ∃ arr, postprocess P (redOp .sum) (optArg .sum) (sumRed (V := ℝ) ex.dim).dim row = some [arr] ∧
        arr.shape = [d] ∧ ∀ k < d, arr.get k =
          (js.map fun j => K.val data i j 0 * data src ((if N = 1 then 0 else j) * d + k)).sum := by
  by_cases hN : N = 1
  · subst hN
    simp only [matmul, Option.bind_eq_some_iff] at h
    obtain ⟨v, hr, h⟩ := h
    obtain ⟨⟨hpos, hpos'⟩, hzero, hargs, hfresh, -⟩ := hp.self
    cases v with
    | lazy e =>
      simp only [ndim, Option.bind_eq_some_iff, Option.map_eq_some_iff] at h
      obtain ⟨_, ⟨L, hL, rfl⟩, h⟩ := h
      have hzero' := noZero_op hzero
      obtain ⟨hsem, -, -, -⟩ := good_of_run hr hpos hzero'.1 hargs.1 hfresh.1
      obtain ⟨hdim, -⟩ := hsem.ndim L hL
      split at h
      · cases h
      · rename_i hone
        rw [not_not, hdim] at hone
        simp only [Option.bind_eq_some_iff] at h
        obtain ⟨w, hw, h⟩ := h
        cases w with
        | lazy e' =>
          simp only [Option.bind_eq_some_iff] at h
          obtain ⟨L', hL', h⟩ := h
          have h0 : L'.nbatchdims = nbatch (matProg K oid src shape) := by
            rw [nbatch, hw]
            simp only [hL', Option.map_some, Option.getD_some]
          rw [h0] at h
          obtain ⟨vb, hdims⟩ : ∃ vb, matDims shape = vb ++ [1, 1, d] := by
            rcases hv with ⟨rfl, rfl⟩ | ⟨vb, rfl⟩
            · exact ⟨[], rfl⟩
            · exact ⟨vb, by simp [matDims]⟩
          have hlast : (vb ++ [1, 1, d]).getLastD 1 = d := by simp [List.getLastD_eq_getLast?]
          have hcat : Spec.arrayCat (vb ++ [1, 1, d]) none = 2 := by
            simp [Spec.arrayCat, List.getD_eq_getElem?_getD]
          have hd' : (matProg K oid src shape).dim = d := by
            have hd0 : 0 < d := by simpa [hdims, hlast, PyE.Pos] using hpos'
            simp only [matProg, PyE.dim, PyOp.dim, hone, hdims, hlast]
            exact Nat.max_eq_right hd0
          obtain ⟨hc, S, hS, hsum⟩ := C62_sum (m := m) (n := n) (data := data) hp h hx
            ⟨⟨hh, trivial⟩, fun i hi j hj => ⟨hd i hi j hj, trivial, trivial⟩, fun w h => by cases h⟩ P sch
          refine ⟨hone, hc, S, hS, fun js i row ho => ?_⟩
          obtain ⟨arr, h1, h2, h3⟩ := hsum js i row ho
          rw [hd'] at h2 h3
          refine ⟨arr, h1, h2, fun k hk => (h3 k hk).trans (congrArg List.sum (List.map_congr_left fun j hj => ?_))⟩
          simp only [PyE.along, matProg, PyE.val, PyOp.val, hdims, Spec.readVec, hlast, hcat,
            if_neg Nat.one_ne_zero]
          rw [val_const hr hpos hzero'.1 hargs.1 hfresh.1 hone data i j k 0, cst_eq hk]
          simp [rowIJ]
        | _ => cases h
    | _ => cases h
  · simp only [if_neg hN]
    exact C62_matmul_partial hv hN hp h hx hh hd P sch

/-- A sum over a list of indices below `n`, as a sum over all the indices. -/
theorem sum_count {n : Nat} (f : Nat → ℝ) (js : List Nat) (h : ∀ j ∈ js, j < n) :
    (js.map f).sum = ∑ j : Fin n, (js.count (j : Nat) : ℝ) * f j := by
  induction js with
  | nil => simp
  | cons a l ih =>
    rw [List.map_cons, List.sum_cons, ih fun j hj => h j (by simp [hj])]
    have ha := h a (by simp)
    simp only [List.count_cons, Nat.cast_add, add_mul, Finset.sum_add_distrib]
    rw [add_comm]
    congr 1
    rw [Finset.sum_eq_single (⟨a, ha⟩ : Fin n)]
    · simp
    · intro b _ hb
      have : ¬a = (b : Nat) := fun e => hb (Fin.ext e.symm)
      simp [this]
    · simp

end Verif.Lazy
