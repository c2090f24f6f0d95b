import Mathlib.Tactic.Ring
import Mathlib.Tactic.Linarith
import Mathlib.Algebra.BigOperators.Ring.Finset
import Verif.Spec.Formula

/-!
# Basic facts on values of formulas
-/

namespace Verif

open Spec Finset

theorem dimsOk_pair {a b : Nat} (ha : 0 < a) (hb : 0 < b) :
    dimsOk [a, b] = true ↔ a = b ∨ a = 1 ∨ b = 1 := by
  unfold dimsOk
  by_cases h : a = b
  · subst h; simp
  · have hd : [a, b].dedup = [a, b] := List.Nodup.dedup (by simp [h])
    simp only [hd]
    simp only [h, false_or]
    simp [List.min?]
    omega

theorem dimsOk_triple {a b c : Nat} (ha : 0 < a) (hb : 0 < b) (hc : 0 < c) :
    dimsOk [a, b, c] = true ↔ (a = 1 ∨ a = max (max a b) c) ∧ (b = 1 ∨ b = max (max a b) c) ∧
      (c = 1 ∨ c = max (max a b) c) := by
  unfold dimsOk
  by_cases h1 : a = b
  · subst h1
    by_cases h2 : a = c
    · subst h2; simp
    · have hd : [a, a, c].dedup = [a, c] := by
        rw [List.dedup_cons_of_mem (by simp)]
        exact List.Nodup.dedup (by simp [h2])
      simp only [hd]
      simp [List.min?]
      omega
  · by_cases h2 : a = c
    · subst h2
      have hd : [a, b, a].dedup = [b, a] := by
        rw [List.dedup_cons_of_mem (by simp)]
        exact List.Nodup.dedup (by simp; omega)
      simp only [hd]
      simp [List.min?]
      omega
    · by_cases h3 : b = c
      · subst h3
        have hd : [a, b, b].dedup = [a, b] := by
          rw [List.dedup_cons_of_notMem (by simp [h1]), List.dedup_cons_of_mem (by simp)]
          simp
        simp only [hd]
        simp [List.min?]
        omega
      · have hd : [a, b, c].dedup = [a, b, c] := List.Nodup.dedup (by simp [h1, h2, h3])
        simp only [hd]
        simp
        omega

namespace Expr

theorem WF.pos {e : Expr} (h : e.WF) : 0 < e.dim := by
  induction e with
  | var | zero => exact h
  | int | rat => exact Nat.one_pos
  | un o f _ => exact h.2.2.1
  | bin o f g _ _ => exact h.2.2.2
  | tern o f g h' i1 i2 i3 =>
    have := i1 h.1
    simp only [Expr.dim]; omega
  | fact i d c f g i1 _ => exact i1 h.1

theorem WF.dims {o : Bin} {f g : Expr} (h : (Expr.bin o f g).WF) (ho : o.vectorized = true) :
    f.dim = g.dim ∨ f.dim = 1 ∨ g.dim = 1 := by
  refine (dimsOk_pair h.1.pos h.2.1.pos).mp ?_
  have := h.2.2.1
  cases o <;> first | exact this | simp [Bin.vectorized] at ho

theorem dim_bin {o : Bin} {f g : Expr} (ho : o.vectorized = true) :
    (Expr.bin o f g).dim = max f.dim g.dim := by
  cases o <;> first | rfl | simp [Bin.vectorized] at ho

theorem dim_un {o : Un} {f : Expr} (ho : o.vectorized = true) :
    (Expr.un o f).dim = f.dim := by
  cases o <;> first | rfl | simp [Un.vectorized] at ho

end Expr

/-- A vectorized operation acts on each component. -/
theorem unVal_congr {o : Un} (ho : o.vectorized = true) {d d' : Nat} {x y : Vec} {k l : Nat}
    (h : x k = y l) : unVal o d x k = unVal o d' y l := by
  cases o <;> first | (simp [Un.vectorized] at ho; done) | (simp only [unVal, h]; done)

theorem binVal_congr {o : Bin} (ho : o.vectorized = true) {d d' e e' : Nat} {x y x' y' : Vec}
    {k l : Nat} (h : x k = x' l) (h' : y k = y' l) :
    binVal o d e x y k = binVal o d' e' x' y' l := by
  cases o <;> first | (simp [Bin.vectorized] at ho; done) | (simp only [binVal, h, h']; done)

theorem ternVal_congr {o : Tern} {x y z x' y' z' : Vec} {k l : Nat} (h : x k = x' l)
    (h' : y k = y' l) (h'' : z k = z' l) : ternVal o x y z k = ternVal o x' y' z' l := by
  cases o <;> simp only [ternVal, h, h', h'']

/-- Values of dimension 1 are constant. -/
theorem Expr.val_const {e : Expr} (hw : e.WF) (hd : e.dim = 1) (env : Env) (k l : Nat) :
    e.val env k = e.val env l := by
  induction e generalizing env with
  | var i d c =>
    have : d = 1 := hd
    simp [Expr.val, cst, this]
  | zero | int | rat => rfl
  | un o f ih =>
    by_cases ho : o.vectorized = true
    · rw [dim_un ho] at hd
      exact unVal_congr ho (ih hw.1 hd env)
    · cases o <;> first | rfl | (exact absurd rfl ho) | (
        simp only [Expr.dim, Un.dim] at hd
        subst hd
        simp [Expr.val, unVal, cst])
  | bin o f g i1 i2 =>
    by_cases ho : o.vectorized = true
    · have h1 := hw.1.pos
      have h2 := hw.2.1.pos
      rw [dim_bin ho] at hd
      exact binVal_congr ho (i1 hw.1 (by omega) env) (i2 hw.2.1 (by omega) env)
    · cases o <;> first | rfl | (exact absurd rfl ho) | (
        simp only [Expr.dim, Bin.dim] at hd
        simp [Expr.val, binVal, cst, hd])
  | tern o f g h i1 i2 i3 =>
    have h1 := hw.1.pos
    have h2 := hw.2.1.pos
    have h3 := hw.2.2.1.pos
    simp only [Expr.dim] at hd
    exact ternVal_congr (i1 hw.1 (by omega) env) (i2 hw.2.1 (by omega) env)
      (i3 hw.2.2.1 (by omega) env)
  | fact i d c f g i1 _ => exact i1 hw.1 hd _

end Verif
