import Verif.Proofs.GradMatrix

/-!
# C75: matrices of gradients
-/

namespace Verif

open Spec Finset

/-- The value of a vector of the standard basis. -/
theorem basis_val (D i : Nat) (hi : i < D) (env : Env) (k : Nat) (hk : k < D) :
    (Expr.un (.elemT D i) (.int 1)).val env k = if k = i then 1 else 0 := by
  simp only [Expr.val, unVal, cst]
  split_ifs <;> first | (exfalso; omega) | simp

/-- **C75**: `GradMatrix(e, v)` is the Jacobian matrix of `e` with respect to `v`, at every point where the
operations of `e` are differentiable: the entry `k * v.dim + l` is the derivative of the component `k` of `e` with
respect to the component `l` of `v`. The indices of the variables of `e` are arbitrary; that of the temporary variable
may be one of them.

Missing: the restrictions of C04. -/
theorem C75_matrix_partial {n : Nat} {e r : Expr} {v : VarId} (hv : 0 < v.dim) (hc : v.cat ≠ 3) (he : e.WF)
    (hf : e.FactFree) (hn : e.NoBroadcast) (hu : e.Uses v) (h : gradMatrix n e v = .ok r)
    (env : Env) (x : Fin v.dim → ℝ) (hs : e.Smooth (setVar env v x)) :
    ∃ L, HasDiff e v env x L ∧ r.dim = e.dim * v.dim ∧ r.Def (setVar env v x) ∧
      ∀ (k : Fin e.dim) (l : Fin v.dim), r.val (setVar env v x) (k * v.dim + l) = L (Pi.single l 1) k := by
  obtain ⟨d, hd, hr⟩ := gradMatrix_ok he.pos h
  set t : VarId := ⟨gradMatrixInd e, e.dim, 3⟩ with ht
  obtain ⟨w, hw⟩ := Infinite.exists_notMem_finset (v.ind :: e.inds).toFinset
  simp only [List.mem_toFinset, List.mem_cons, not_or] at hw
  obtain ⟨hwv, hwe⟩ := hw
  have hfix : e.rename (tempSwap t.ind t.cat w) = e := by
    refine Expr.rename_fix hf fun p hp => Equiv.swap_apply_of_ne_of_ne ?_ ?_
    · intro h1
      simp only [ht, Prod.mk.injEq] at h1
      exact gradMatrixInd_fresh hp h1.2 h1.1
    · intro h1
      simp only [Prod.mk.injEq] at h1
      exact hwe (h1.1 ▸ mem_inds hp)
  have hvfix : v.rename (tempSwap t.ind t.cat w) = v := by
    have : tempSwap t.ind t.cat w (v.ind, v.cat) = (v.ind, v.cat) := by
      refine Equiv.swap_apply_of_ne_of_ne ?_ ?_
      · intro h1
        simp only [ht, Prod.mk.injEq] at h1
        exact hc h1.2
      · intro h1
        simp only [Prod.mk.injEq] at h1
        exact hwv h1.1.symm
    simp only [VarId.rename, this]
  have hd' : diffT n v e (.var w e.dim (-1)) = .ok (d.rename (tempSwap t.ind t.cat w)) := by
    have h1 := diffT_rename (tempSwap_inj t.ind t.cat w) n v e he hf (.var (gradMatrixInd e) e.dim 3)
    unfold Ex at h1
    rw [hfix, hvfix, hd] at h1
    simpa only [Expr.rename, tempSwap, ht, Equiv.swap_apply_left, Except.map] using h1
  have hdf : d.FactFree := diffT_factFree he hf (gradin := .var (gradMatrixInd e) e.dim 3) trivial hd
  have hdv : ∀ p ∈ d.vars, p = (t.ind, t.dim, t.cat) ∨ ((p.1, p.2.2) ≠ (t.ind, t.cat) ∧ p.1 ≠ w) := by
    intro p hp
    rcases diffT_vars he hf (gradin := .var (gradMatrixInd e) e.dim 3) trivial hd hp with h1 | h1
    · refine .inr ⟨fun h2 => ?_, fun h2 => hwe (h2 ▸ mem_inds h1)⟩
      simp only [ht, Prod.mk.injEq] at h2
      exact gradMatrixInd_fresh h1 h2.2 h2.1
    · exact .inl (by simpa [Expr.vars] using h1)
  have hwd : e.deg w = 0 := Expr.deg_inds hwe
  obtain ⟨L, hL, -, hdim, -⟩ := grad_temp_at hv he hf hn hu hwd hwv hd' env x hs 0
  rw [Expr.dim_rename] at hdim
  -- the rows
  have row : ∀ i : Fin e.dim, (d.replace t.expr (.un (.elemT e.dim i) (.int 1))).dim = v.dim ∧
      (d.replace t.expr (.un (.elemT e.dim i) (.int 1))).Def (setVar env v x) ∧
      ∀ l : Fin v.dim, (d.replace t.expr (.un (.elemT e.dim i) (.int 1))).val (setVar env v x) l =
        L (Pi.single l 1) i := by
    intro i
    obtain ⟨h1, h2, h3⟩ := replace_rename (t := t) (w := w) (el := .un (.elemT e.dim i) (.int 1))
      (env := setVar env v x) rfl
      (by
        intro k
        simp only [Expr.val, unVal, cst, ht]
        split_ifs <;> rfl)
      (by simp [Expr.Def, unDef])
      hdf hdv
    obtain ⟨L', hL', k1, -, k2⟩ := grad_temp_at hv he hf hn hu hwd hwv hd' env x hs
      ((Expr.un (.elemT e.dim i) (.int 1)).val (setVar env v x))
    refine ⟨h1.trans hdim, h3 k1, fun l => ?_⟩
    have h4 := k2 (Pi.single l 1)
    rw [h2, hL.unique hL']
    simp only [Pi.single_apply, mul_ite, mul_one, mul_zero, sum_ite_eq', mem_univ, if_true] at h4
    rw [h4, sum_eq_single i]
    · rw [basis_val _ _ i.2 _ _ i.2, if_pos rfl, one_mul]
    · intro k _ hk
      rw [basis_val _ _ i.2 _ _ k.2, if_neg (fun h => hk (Fin.ext h)), zero_mul]
    · simp
  obtain ⟨r1, r2, r3⟩ := row ⟨0, he.pos⟩
  obtain ⟨c1, c2, c3, c4⟩ := concats_val (g := d.replace t.expr (.un (.elemT e.dim 0) (.int 1))) hv
    (gs := (List.range (e.dim - 1)).map fun (i : Nat) => d.replace t.expr (.un (.elemT e.dim (i + 1)) (.int 1)))
    (by
      intro g hg
      obtain ⟨i, hi, rfl⟩ := List.mem_map.1 hg
      have := List.mem_range.1 hi
      exact_mod_cast (row ⟨i + 1, by omega⟩).1)
    (r1 ▸ hv) (setVar env v x)
  change r = concats (d.replace t.expr _) _ at hr
  rw [← hr] at c1 c2 c3 c4
  have hpos := he.pos
  refine ⟨L, hL, ?_, ?_, ?_⟩
  · rw [c1]
    have : (d.replace t.expr (.un (.elemT e.dim 0) (.int 1))).dim = v.dim := r1
    rw [this, List.length_map, List.length_range]
    conv_rhs => rw [show e.dim = 1 + (e.dim - 1) by omega, Nat.add_mul, Nat.one_mul]
  · refine c2.2 ⟨r2, fun g hg => ?_⟩
    obtain ⟨i, hi, rfl⟩ := List.mem_map.1 hg
    have := List.mem_range.1 hi
    exact_mod_cast (row ⟨i + 1, by omega⟩).2.1
  · intro k l
    have hdd : (d.replace t.expr (.un (.elemT e.dim 0) (.int 1))).dim = v.dim := r1
    obtain ⟨k, hk⟩ := k
    cases k with
    | zero =>
      rw [Nat.zero_mul, Nat.zero_add, c3 _ (by rw [hdd]; exact l.2)]
      exact r3 l
    | succ k =>
      have h5 := c4 k (by simp; omega) l l.2
      rw [hdd, List.getElem_map, List.getElem_range] at h5
      have h6 := (row ⟨k + 1, hk⟩).2.2 l
      rw [← h6]
      push_cast
      rw [← h5]
      congr 1
      ring

/-- The formula `Exp(-|x-y|^2) * (x - y)`, in which the variable `y` has the index of the temporary variable. -/
private abbrev matEx : Expr :=
  .bin .mul (.un .exp (.un .minus (.un .sum (.un .square (.bin .sub (.var 0 3 0) (.var 1 3 1))))))
    (.bin .sub (.var 0 3 0) (.var 1 3 1))

/-- The theorem applies to this formula. -/
example (env : Env) (x : Fin 3 → ℝ) : gradMatrixInd matEx = 1 ∧ ∃ r, gradMatrix 40 matEx ⟨0, 3, 0⟩ = .ok r ∧
    r.dim = 9 ∧ r.Def (setVar env ⟨0, 3, 0⟩ x) := by
  refine ⟨by decide, ?_⟩
  obtain ⟨r, hr⟩ : ∃ r, gradMatrix 40 matEx ⟨0, 3, 0⟩ = .ok r := ⟨_, rfl⟩
  have := (C75_matrix_partial (v := ⟨0, 3, 0⟩) (by decide) (by decide)
    ?_ ?_ ?_ ?_ hr env x ?_).choose_spec
  · exact ⟨r, hr, this.2.1, this.2.2.1⟩
  all_goals simp [Expr.WF, Expr.dim, Bin.dim, Un.dim, Bin.accept, Un.accept, dimsOk, Expr.FactFree,
    Expr.NoBroadcast, Expr.Uses, Expr.Smooth, unSmooth, binSmooth]

end Verif
