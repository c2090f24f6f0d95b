import Verif.Proofs.SolveGrad

/-!
# C55: the gradient of kernel solvers

`KernelSolve` returns the solution `a` of `(K + alpha Id) a = b`, where `K a` is the sum reduction of a formula which is
linear with respect to the variable `w` that receives `a`.  Its backward pass solves `(K + alpha Id) g = G`, returns `g`
as the gradient with respect to `b`, and for any other variable `v` calls the gradient reduction
`Grad_WithSavedForward(formula, v, η, result)` where `w` receives the result `a` and `η` receives `-g`
(`torch/operations.py:90-166`).
-/

namespace Verif

open Finset Matrix Spec

/-- **C55**, right-hand side: the gradient is `g`. -/
theorem C55_rhs {ι : Type} [Fintype ι] {A : Matrix ι ι ℝ} (hs : A.IsSymm) {b δ G g : ι → ℝ} {a : ℝ → ι → ℝ}
    (ha : ∀ t, A *ᵥ a t = b + t • δ) (hg : A *ᵥ g = G) : HasDerivAt (fun t => G ⬝ᵥ a t) (g ⬝ᵥ δ) 0 := by
  have e : ∀ t, G ⬝ᵥ a t = g ⬝ᵥ b + t * (g ⬝ᵥ δ) := fun t => by
    rw [← hg, dotProduct_comm, dotProduct_mulVec, ← mulVec_transpose, hs.eq, ha, dotProduct_comm, dotProduct_add,
      dotProduct_smul, smul_eq_mul]
  simp only [e]
  simpa using ((hasDerivAt_id (0 : ℝ)).mul_const (g ⬝ᵥ δ)).const_add (g ⬝ᵥ b)

/-- **C55**, other variables.  `K t` is the matrix of the reduction when the array of `v` is `x + t δ`, `a t` the solution,
`g` the solution for the gradient `G` of the loss.  The derivative of the loss `⟨G, a t⟩` is the scalar product of `δ` with
the output of the gradient reduction.

Missing: the restrictions of C04 on the formula; the two linear systems are assumed to be solved exactly, whereas the
solver stops when the residual is small (C30); batch dimensions. -/
theorem C55_partial {f f0 : Expr} {v w : VarId} {tagI m n M : Nat} {red : RedExpr} {η : Int}
    (ht : tagI = 0 ∨ tagI = 1) (hv : 0 < v.dim) (hc : v.cat = 0 ∨ v.cat = 1 ∨ v.cat = 2)
    (he : f.WF) (hf : f.FactFree) (hn : f.NoBroadcast) (hu : f.Uses v) (hη : η ≠ v.ind) (hw : η ≠ w.ind)
    (h : RedGrads (.sum f tagI) v (.var η f.dim tagI) f0 red)
    (hM : outRows tagI m n = M) (hd : w.dim = f.dim)
    (base : Nat × Nat → Env) (x δ : Nat → Fin v.dim → ℝ)
    (hsm : ∀ a : Fin M × Fin w.dim → ℝ, ∀ i < m, ∀ j < n, f.Smooth (point (withInv base w a) v x (i, j)))
    (K : ℝ → Matrix (Fin M × Fin w.dim) (Fin M × Fin w.dim) ℝ)
    (hK : ∀ t a e, sumRow f tagI m n (point (withInv base w a) v (line x δ t)) e.1 e.2 = (K t *ᵥ a) e)
    (α : ℝ) (hs : (K 0).IsSymm) (hdet : IsUnit (K 0 + α • 1).det) {b G g : Fin M × Fin w.dim → ℝ}
    {a : ℝ → Fin M × Fin w.dim → ℝ} (ha : ∀ᶠ t in nhds 0, (K t + α • 1) *ᵥ a t = b) (hg : (K 0 + α • 1) *ᵥ g = G)
    (hbase : Holds base η tagI m n (-g)) :
    ∃ r axis, red = .sum r axis ∧ axis = (if v.cat = 1 then 1 else 0) ∧
      HasDerivAt (fun t => G ⬝ᵥ a t) (dotGrad v m n (sumRow r axis m n (point (withInv base w (a 0)) v x)) δ) 0 := by
  -- the rows of `-g`
  let Gr : Nat → Vec := fun r k => if hk : k < w.dim then rows (-g) r ⟨k, hk⟩ else 0
  have hold : ∀ c : Fin M × Fin w.dim → ℝ, HoldsRows (withInv base w c) η tagI m n 0 f.dim Gr := by
    intro c i hi j hj k hk
    have hk' : k < w.dim := by omega
    rw [Nat.zero_add]
    simp only [withInv, setVar, Function.update_of_ne hw, Gr, dif_pos hk']
    exact hbase i hi j hj ⟨k, hk'⟩
  -- the entries of the matrix are differentiable
  have hdiff : ∀ i j, DifferentiableAt ℝ (fun t => K t i j) 0 := by
    intro i j
    obtain ⟨N, hN⟩ := h
    simp only [RedExpr.diffT, sumDiffT] at hN
    obtain ⟨r, h1, hN⟩ := bind_ok' hN
    have hval : ∀ a < outRows tagI m n, ∀ s < redRows tagI m n, ∀ k < f.dim,
        (Expr.var η f.dim tagI).val (point (withInv base w (Pi.single j 1)) v x (pairAt tagI a s)) k = Gr a k := by
      intro a ha s hs k hk
      have := (hold (Pi.single j 1)).pair ht ha hs hk
      rw [Nat.zero_add] at this
      simp only [Expr.val, point_other (withInv base w (Pi.single j 1)) v x _ hη, cst]
      split
      · obtain rfl : k = 0 := by omega
        exact this
      · exact this
    obtain ⟨S, h2, -⟩ := sum_grad (tagI := tagI) (m := m) (n := n) hv hc he hf hn hu
      (gradin := .var η f.dim tagI) he.pos rfl ⟨N, h1⟩ (withInv base w (Pi.single j 1)) x δ (hsm _)
      (fun _ _ _ _ => trivial) Gr hval
    have h3 := (h2 i.1 (by rw [hM]; exact i.1.isLt) i.2 (by rw [← hd]; exact i.2.isLt)).differentiableAt
    simp only [hK, mulVec_single_one] at h3
    exact h3
  obtain ⟨r, axis, hr, hax, hD⟩ := C44_sum_partial ht hv hc he hf hn hu hη h (withInv base w (a 0)) x δ (hsm (a 0)) Gr
    (hold (a 0))
  refine ⟨r, axis, hr, hax, solve_grad (A := fun t => K t + α • 1) ?_ hdet ?_ ha hg ?_⟩
  · intro i j
    simp only [Matrix.add_apply]
    exact (hdiff i j).add_const _
  · exact hs.add (isSymm_one.smul α)
  · have e : ∀ t, -(g ⬝ᵥ (K t + α • 1) *ᵥ a 0) =
        dotRows (outRows tagI m n) f.dim Gr (sumRow f tagI m n (point (withInv base w (a 0)) v (line x δ t))) -
          α * (g ⬝ᵥ a 0) := by
      intro t
      rw [add_mulVec, dotProduct_add, smul_mulVec, one_mulVec, dotProduct_smul, smul_eq_mul, neg_add', hM]
      congr 1
      rw [← neg_dotProduct]
      unfold dotRows dotProduct
      rw [Fintype.sum_prod_type, ← Fin.sum_univ_eq_sum_range (fun r => ∑ k ∈ range f.dim, Gr r k *
        sumRow f tagI m n (point (withInv base w (a 0)) v (line x δ t)) r k)]
      refine Finset.sum_congr rfl fun r _ => ?_
      rw [← hd, ← Fin.sum_univ_eq_sum_range (fun k => Gr r k *
        sumRow f tagI m n (point (withInv base w (a 0)) v (line x δ t)) r k)]
      refine Finset.sum_congr rfl fun k _ => ?_
      rw [hK t (a 0) (r, k)]
      simp [Gr, rows]
    simp only [e]
    exact hD.sub_const _

private theorem mulVec_one' (A : Matrix (Fin 1 × Fin 1) (Fin 1 × Fin 1) ℝ) (a : Fin 1 × Fin 1 → ℝ) (i : Fin 1 × Fin 1) :
    (A *ᵥ a) i = A (0, 0) (0, 0) * a (0, 0) := by
  obtain rfl : i = (0, 0) := Subsingleton.elim _ _
  simp [mulVec, dotProduct, Fintype.sum_prod_type]

/-- `C55_partial` applies to the system `(exp(p) + 1) a = 1` with one unknown, at `p = 0`, for the loss `a`. -/
example : ∃ r, HasDerivAt (fun t : ℝ => 1 / (Real.exp t + 1))
    (dotGrad ⟨0, 1, 2⟩ 1 1 (sumRow r 0 1 1 (point (withInv (M := 1) (fun _ _ _ => -(1 / 2)) ⟨1, 1, 1⟩ fun _ => 1 / 2)
      ⟨0, 1, 2⟩ fun _ _ => 0)) fun _ _ => 1) 0 := by
  have h : RedGrads (.sum (.bin .mul (.un .exp (.var 0 1 2)) (.var 1 1 1)) 0) ⟨0, 1, 2⟩ (.var 2 1 0) (.var 3 1 0) _ :=
    ⟨20, rfl⟩
  obtain ⟨r, axis, h1, h2, h3⟩ := C55_partial (v := ⟨0, 1, 2⟩) (w := ⟨1, 1, 1⟩) (m := 1) (n := 1) (M := 1) (.inl rfl)
    (by decide) (by decide) (by simp [Expr.WF, Expr.dim, Un.dim, Bin.dim, Un.accept, Bin.accept, dimsOk])
    (by simp [Expr.FactFree]) (by simp [Expr.NoBroadcast]) (by simp [Expr.Uses]) (by decide) (by decide) h rfl rfl
    (fun _ _ _ => -(1 / 2)) (fun _ _ => 0) (fun _ _ => 1) (by simp [Expr.Smooth, unSmooth, binSmooth])
    (fun t => Matrix.of fun _ _ => Real.exp t)
    (by
      intro t a e
      obtain ⟨i, k⟩ := e
      fin_cases i
      fin_cases k
      refine Eq.trans ?_ (mulVec_one' _ _ _).symm
      simp [sumRow, redRows, Expr.val, binVal, unVal, cst, point, withInv, setVar, rows, line, rowAt, pairAt,
        Function.update])
    1 (by ext i j; rfl) (by
      rw [det_eq_elem_of_card_eq_one (by simp) (0, 0)]
      norm_num) (b := fun _ => 1) (G := fun _ => 1) (g := fun _ => 1 / 2) (a := fun t _ => 1 / (Real.exp t + 1))
    (.of_forall fun t => by
      funext i
      have : Real.exp t + 1 ≠ 0 := by positivity
      refine (mulVec_one' _ _ _).trans ?_
      simp
      exact mul_inv_cancel₀ this)
    (by
      funext i
      refine (mulVec_one' _ _ _).trans ?_
      simp
      norm_num)
    (by intro i hi j hj k; simp [rows, rowAt]; omega)
  rw [if_neg (by decide)] at h2
  subst h2
  refine ⟨r, ?_⟩
  simp only [dotProduct] at h3
  simpa [one_add_one_eq_two] using h3

end Verif
