import Mathlib.Analysis.Calculus.Deriv.Pi
import Mathlib.Analysis.Calculus.Deriv.Add
import Mathlib.Analysis.Calculus.Deriv.Mul
import Mathlib.Analysis.Calculus.Deriv.Comp
import Verif.Model.RedDiff
import Verif.Spec.RedDiff
import Verif.Props.Diff

/-!
# Derivatives of sums
-/

namespace Verif

open Finset Spec

/-- The pairs `(i, j)`, by output row and reduced row. -/
theorem sum_pairs (tagI m n : Nat) (φ : Nat × Nat → ℝ) :
    ∑ a ∈ range (outRows tagI m n), ∑ s ∈ range (redRows tagI m n), φ (pairAt tagI a s) =
      ∑ i ∈ range m, ∑ j ∈ range n, φ (i, j) := by
  unfold outRows redRows pairAt
  split
  · rfl
  · exact sum_comm

theorem pairAt_lt {tagI m n a s : Nat} (ha : a < outRows tagI m n) (hs : s < redRows tagI m n) :
    (pairAt tagI a s).1 < m ∧ (pairAt tagI a s).2 < n := by
  unfold outRows redRows pairAt at *
  split <;> simp_all

theorem dotGrad_eq {v : VarId} (hc : v.cat = 0 ∨ v.cat = 1 ∨ v.cat = 2) (m n : Nat) (r : Expr)
    (val : Nat × Nat → Env) (δ : Nat → Fin v.dim → ℝ) :
    dotGrad v m n (sumRow r v.axis m n val) δ =
      ∑ i ∈ range m, ∑ j ∈ range n, ∑ k : Fin v.dim, r.val (val (i, j)) k * δ (rowAt v.cat (i, j)) k := by
  rw [← sum_pairs v.axis m n fun p => ∑ k : Fin v.dim, r.val (val p) k * δ (rowAt v.cat p) k]
  unfold dotGrad
  have hrows : (if v.cat = 1 then n else m) = outRows v.axis m n := by
    rcases hc with h | h | h <;> simp [VarId.axis, h, outRows]
  rw [hrows]
  refine sum_congr rfl fun b _ => ?_
  rw [sum_comm]
  refine sum_congr rfl fun k _ => ?_
  rw [sumRow, sum_mul]
  refine sum_congr rfl fun s _ => ?_
  congr 1
  rcases hc with h | h | h <;> simp [VarId.axis, h, rowAt, pairAt]

/-- Derivative of a sum along a line, and the gradient formula. -/
theorem sum_grad {f gradin r : Expr} {v : VarId} {tagI m n : Nat} (hv : 0 < v.dim)
    (hc : v.cat = 0 ∨ v.cat = 1 ∨ v.cat = 2) (he : f.WF)
    (hf : f.FactFree) (hn : f.NoBroadcast) (hu : f.Uses v) (hg : gradin.WF) (hd : gradin.dim = f.dim)
    (h : Grads f v gradin r) (base : Nat × Nat → Env) (x δ : Nat → Fin v.dim → ℝ)
    (hs : ∀ i < m, ∀ j < n, f.Smooth (point base v x (i, j)))
    (hgd : ∀ i < m, ∀ j < n, gradin.Def (point base v x (i, j)))
    (G : Nat → Vec) (hG : ∀ a < outRows tagI m n, ∀ s < redRows tagI m n, ∀ k < f.dim,
      gradin.val (point base v x (pairAt tagI a s)) k = G a k) :
    ∃ S : Nat → Vec, (∀ a < outRows tagI m n, ∀ k < f.dim,
      HasDerivAt (fun t => sumRow f tagI m n (point base v (line x δ t)) a k) (S a k) 0) ∧
      dotRows (outRows tagI m n) f.dim G S = dotGrad v m n (sumRow r v.axis m n (point base v x)) δ := by
  have key : ∀ p : Nat × Nat, p.1 < m → p.2 < n → ∃ L, HasDiff f v (base p) (x (rowAt v.cat p)) L ∧
      IsGrad f v gradin r (base p) (x (rowAt v.cat p)) L := fun p h1 h2 =>
    C04_grad_partial hv he hf hn hu hg hd h (base p) (x (rowAt v.cat p)) (hs p.1 h1 p.2 h2)
      (hgd p.1 h1 p.2 h2)
  choose! L hL hI using key
  refine ⟨fun a k => ∑ s ∈ range (redRows tagI m n), if hk : k < f.dim then
    L (pairAt tagI a s) (δ (rowAt v.cat (pairAt tagI a s))) ⟨k, hk⟩ else 0, ?_, ?_⟩
  · intro a ha k hk
    unfold sumRow
    refine HasDerivAt.fun_sum fun s hs => ?_
    simp only [hk, dif_pos]
    obtain ⟨h1, h2⟩ := pairAt_lt ha (mem_range.mp hs)
    have hD := hL (pairAt tagI a s) h1 h2
    have hl : HasDerivAt (fun t : ℝ => line x δ t (rowAt v.cat (pairAt tagI a s)))
        (δ (rowAt v.cat (pairAt tagI a s))) 0 := by
      have := ((hasDerivAt_id (0 : ℝ)).smul_const (δ (rowAt v.cat (pairAt tagI a s)))).const_add
        (x (rowAt v.cat (pairAt tagI a s)))
      simpa [line] using this
    have h0 : line x δ 0 (rowAt v.cat (pairAt tagI a s)) = x (rowAt v.cat (pairAt tagI a s)) := by simp [line]
    rw [HasDiff, ← h0] at hD
    have := hD.comp_hasDerivAt (0 : ℝ) hl
    exact (hasDerivAt_pi.mp this) ⟨k, hk⟩
  · rw [dotGrad_eq hc, ← sum_pairs tagI m n fun p =>
      ∑ k : Fin v.dim, r.val (point base v x p) k * δ (rowAt v.cat p) k]
    unfold dotRows
    refine sum_congr rfl fun a ha => ?_
    simp only [mul_sum]
    rw [sum_comm]
    refine sum_congr rfl fun s hs => ?_
    obtain ⟨h1, h2⟩ := pairAt_lt (mem_range.mp ha) (mem_range.mp hs)
    have := (hI (pairAt tagI a s) h1 h2).2.2 (δ (rowAt v.cat (pairAt tagI a s)))
    unfold point at *
    rw [this, ← Fin.sum_univ_eq_sum_range (fun k => G a k * if hk : k < f.dim then
      L (pairAt tagI a s) (δ (rowAt v.cat (pairAt tagI a s))) ⟨k, hk⟩ else 0)]
    refine sum_congr rfl fun k _ => ?_
    rw [hG a (mem_range.mp ha) s (mem_range.mp hs) k k.2]
    simp

end Verif
