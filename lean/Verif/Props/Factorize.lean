import Verif.Proofs.DiffFact
import Verif.Props.Diff

/-!
# C08: factorization and substitution; C04 for factorized formulas
-/

namespace Verif

open Finset Spec

/-- `r` has the dimension and all the values of `e`, and can be evaluated wherever `e` can. -/
def SameValue (e r : Expr) : Prop :=
  r.dim = e.dim ∧ ∀ env, r.val env = e.val env ∧ (e.Def env → r.Def env)

theorem Stand.sameValue {e r : Expr} (h : ∀ env, Stand .defined env e r) : SameValue e r :=
  ⟨(h fun _ _ => 0).dim, fun env => ⟨(h env).val, fun hd =>
    (r.dom_defined env).mp ((h env).dom ((e.dom_defined env).mpr hd))⟩⟩

/-! ## C08 -/

/-- **C08** for `replace`: a sub-formula can be replaced by a formula of the same value.

Missing with respect to the full property: formulas with factorizations below other operations, or whose
temporary variables occur in one of the two formulas. -/
theorem C08_replace_partial {e old new : Expr} (he : e.Scoped) (ho : old.FactFree)
    (hs : ∀ s ∈ e.tempVars, s.1 ∉ old.inds ∧ s.1 ∉ new.inds) (hw : new.WF) (h : SameValue old new) :
    SameValue e (e.replace old new) :=
  Stand.sameValue fun env => Stand.replaceScoped he ho ⟨h.1, fun _ => hw, (h.2 env).1, fun hd =>
    (new.dom_defined env).mpr ((h.2 env).2 ((old.dom_defined env).mp hd))⟩ hs

/-- The theorem applies to the formula `Exp(x + y) * (x + y)`, in which `x + y` becomes `y + x`. -/
example : SameValue
    (.bin .mul (.un .exp (.bin .add (.var 0 1 0) (.var 1 1 1))) (.bin .add (.var 0 1 0) (.var 1 1 1)))
    (.bin .mul (.un .exp (.bin .add (.var 1 1 1) (.var 0 1 0))) (.bin .add (.var 1 1 1) (.var 0 1 0))) := by
  refine C08_replace_partial (e := .bin .mul (.un .exp (.bin .add (.var 0 1 0) (.var 1 1 1)))
    (.bin .add (.var 0 1 0) (.var 1 1 1))) (old := .bin .add (.var 0 1 0) (.var 1 1 1))
    (new := .bin .add (.var 1 1 1) (.var 0 1 0)) ?_ ?_ ?_ ?_ ⟨rfl, fun env => ⟨?_, ?_⟩⟩
  · simp [Expr.Scoped, Expr.FactFree]
  · simp [Expr.FactFree]
  · simp [Expr.tempVars]
  · simp [Expr.WF, Expr.dim, Bin.accept, Bin.dim, dimsOk]
  · funext k
    simp [Expr.val, binVal, add_comm]
  · simp [Expr.Def, binDef]

/-- **C08** for `Factorize`: the result has the same value as the formula, for every `g`.

Missing with respect to the full property, which fails for them (`not_C08`): formulas with factorizations
below other operations. -/
theorem C08_factorize_partial {e g : Expr} (he : e.Scoped) (hw : e.WF) :
    SameValue e (factorize e g) ∧ (factorize e g).Scoped ∧ (factorize e g).WF := by
  have h : ∀ env, Stand .defined env e (factorize e g) := fun env =>
    Stand.factorize he hw (fun _ _ _ => trivial) (fun _ _ _ => trivial)
  exact ⟨Stand.sameValue h, he.factorize, (h fun _ _ => 0).wf hw⟩

/-- **C08** for `AutoFactorize`, under the same restriction; in particular, for all formulas without
factorization. -/
theorem C08_autoFactorize_partial {e r : Expr} (he : e.Scoped) (hw : e.WF)
    (h : ∃ n, autoFactorize n e = .ok r) : SameValue e r ∧ r.Scoped ∧ r.WF := by
  obtain ⟨n, h⟩ := h
  have h : ∀ env, Stand .defined env e r ∧ r.Scoped := fun env =>
    autoFactorize_stand he hw (fun _ _ _ => trivial) (fun _ _ _ => trivial) h
  exact ⟨Stand.sameValue fun env => (h env).1, (h fun _ _ => 0).2, (h fun _ _ => 0).1.wf hw⟩

/-- `AutoFactorize` comes to an end. -/
theorem C08_autoFactorize_terminates {e : Expr} (he : e.Scoped) (hw : e.WF) :
    ∃ r n, autoFactorize n e = .ok r := by
  obtain ⟨r, h⟩ := autoFactorize_terminates he hw _ (Nat.lt_succ_self _)
  exact ⟨r, _, h⟩

/-- What is left does not repeat: apart from variables, zeros and integers, no sub-formula occurs twice
in the result of `AutoFactorize`.  This holds for all formulas. -/
theorem C08_autoFactorize_complete {e r : Expr} (h : ∃ n, autoFactorize n e = .ok r) : r.NoRepeat := by
  obtain ⟨n, h⟩ := h
  induction n generalizing e with
  | zero => cases h
  | succ n ih =>
    rw [autoFactorize] at h
    split_ifs at h with h0
    · exact ih h
    · cases h
      exact recSearch_noRepeat (not_not.mp h0)

/-- The temporary variables introduced by `Factorize` and `AutoFactorize` have negative indices: they
do not refer to an input. -/
theorem C08_negative {e g r : Expr} (he : e.Scoped)
    (h : r = factorize e g ∨ ∃ n, autoFactorize n e = .ok r) :
    ∀ s ∈ r.tempVars, s ∈ e.tempVars ∨ s.1 < 0 := by
  intro s hs
  rcases h with rfl | ⟨n, h⟩
  · exact factorize_negative he hs
  · exact autoFactorize_negative he h hs

/-- The formula `Exp(|x - y|^2) * |x - y|^2 + Exp(|x - y|^2)`. -/
private abbrev factEx : Expr :=
  .bin .add (.bin .mul (.un .exp (.un .sum (.un .square (.bin .sub (.var 0 3 0) (.var 1 3 1)))))
    (.un .sum (.un .square (.bin .sub (.var 0 3 0) (.var 1 3 1)))))
    (.un .exp (.un .sum (.un .square (.bin .sub (.var 0 3 0) (.var 1 3 1)))))

/-- Its factorization `a * b + a with a = Exp(b), with b = |x - y|^2`. -/
example : autoFactorize 10 factEx = .ok (.fact (-2) 1 3 (.fact (-1) 1 3 (.bin .add (.bin .mul (.var (-1) 1 3) (.var (-2) 1 3)) (.var (-1) 1 3))
    (.un .exp (.var (-2) 1 3))) (.un .sum (.un .square (.bin .sub (.var 0 3 0) (.var 1 3 1))))) := by
  decide +kernel

/-- The theorems apply to it. -/
example : ∃ r, (∃ n, autoFactorize n factEx = .ok r) ∧ SameValue factEx r := by
  have hw : factEx.WF := by
    simp [Expr.WF, Expr.dim, Bin.dim, Un.dim, Bin.accept, Un.accept, dimsOk]
  have hs : factEx.Scoped := by simp [Expr.Scoped, Expr.FactFree]
  obtain ⟨r, h⟩ := C08_autoFactorize_terminates hs hw
  exact ⟨r, h, (C08_autoFactorize_partial hs hw h).1⟩

/-- `factEx` has repetitions; its factorization has none, and its temporary variables are new. -/
example : ¬ factEx.NoRepeat ∧ ∃ r, (∃ n, autoFactorize n factEx = .ok r) ∧ r.NoRepeat ∧
    ∀ s ∈ r.tempVars, s.1 < 0 := by
  have hw : factEx.WF := by
    simp [Expr.WF, Expr.dim, Bin.dim, Un.dim, Bin.accept, Un.accept, dimsOk]
  have hs : factEx.Scoped := by simp [Expr.Scoped, Expr.FactFree]
  obtain ⟨r, h⟩ := C08_autoFactorize_terminates hs hw
  refine ⟨fun h => ?_, r, h, C08_autoFactorize_complete h, fun s hr => ?_⟩
  · have h1 : factEx.subs.count (.un .square (.bin .sub (.var 0 3 0) (.var 1 3 1))) = 3 := by
      decide +kernel
    rcases h (.un .square (.bin .sub (.var 0 3 0) (.var 1 3 1))) with h | ⟨_, _, _, h⟩ | ⟨_, h⟩ | ⟨_, h⟩
    · omega
    all_goals cases h
  · rcases C08_negative (g := factEx) hs (.inr h) s hr with h | h
    · simp [Expr.tempVars] at h
    · exact h

/-- `Factorize(Exp(z^2) * z^2, z^2)`. -/
private abbrev half (z : Expr) : Expr :=
  factorize (.bin .mul (.un .exp (.un .square z)) (.un .square z)) (.un .square z)

/-- The sum of two factorized formulas, of the same shape, is factorized again: the temporary variable,
which has the same index in both, escapes from its scope. -/
theorem not_C08 : ∃ e r : Expr, e = .bin .add (half (.var 0 1 0)) (half (.var 1 1 1)) ∧ e.WF ∧
    (∃ n, autoFactorize n e = .ok r) ∧ (∃ env, e.Def env ∧ r.val env 0 ≠ e.val env 0) ∧
    (-1 : Int) ∈ r.inds ∧ r.tempVars = [(-2, 1, 3)] := by
  have e1 : half (.var 0 1 0) = .fact (-1) 1 3 (.bin .mul (.un .exp (.var (-1) 1 3)) (.var (-1) 1 3))
      (.un .square (.var 0 1 0)) := by decide +kernel
  have e2 : half (.var 1 1 1) = .fact (-1) 1 3 (.bin .mul (.un .exp (.var (-1) 1 3)) (.var (-1) 1 3))
      (.un .square (.var 1 1 1)) := by decide +kernel
  rw [e1, e2]
  refine ⟨_, .fact (-2) 1 3 (.bin .add (.fact (-1) 1 3 (.var (-2) 1 3) (.un .square (.var 0 1 0)))
    (.fact (-1) 1 3 (.var (-2) 1 3) (.un .square (.var 1 1 1))))
    (.bin .mul (.un .exp (.var (-1) 1 3)) (.var (-1) 1 3)), rfl, ?_, ⟨10, by decide +kernel⟩,
    ⟨fun i _ => if i = 0 then 1 else 0, ?_, ?_⟩, by decide, by decide⟩
  · simp [Expr.WF, Expr.dim, Bin.dim, Un.dim, Bin.accept, Un.accept, dimsOk]
  · simp [Expr.Def, binDef, unDef]
  · simp [Expr.val, binVal, unVal, cst, (Real.exp_ne_zero 1).symm]

/-! ## C04 for factorized formulas -/

/-- **C04** for formulas with factorizations, such as those returned by `AutoFactorize`.

Missing: as for `C04_grad_partial`, and formulas with factorizations below other operations. -/
theorem C04_factorized_partial {e gradin r : Expr} {v : VarId} (hv : 0 < v.dim) (he : e.WF)
    (hf : e.Scoped) (hn : e.NoBroadcast) (hu : e.Uses v) (hg : gradin.WF) (hgf : gradin.FactFree)
    (hd : gradin.dim = e.dim) (h : Grads e v gradin r) (env : Env) (x : Fin v.dim → ℝ)
    (hs : e.Smooth (setVar env v x)) (hgd : gradin.Def (setVar env v x)) :
    (∃ L, HasDiff e v env x L ∧ IsGrad e v gradin r env x L) ∧ r.Scoped := by
  obtain ⟨n, h⟩ := h
  obtain ⟨e0, h1, h2, h3⟩ := expand hf he
  obtain ⟨m, r0, hm, hr⟩ := h3 n v gradin r hgf h
  have hst := fun env => h2 .triv env
  have hw0 : e0.WF := (hst env).wf he
  have hdim : e.dim = e0.dim := (hst env).dim.symm
  have hval : e.val = fun env => e0.val env := funext fun env => (hst env).val.symm
  obtain ⟨s1, s2, s3⟩ := Expr.dom_smoothF.mp
    ((h2 (.smoothF v) (setVar env v x)).dom (Expr.dom_smoothF.mpr ⟨hs, hn, hu⟩))
  have hd0 : gradin.dim = e0.dim := hd.trans hdim
  have hw : r0.WF := (diffT_res (F := fun y => setVar env v y) (x₀ := x) hv (setVar_hasFDerivAt env v x)
    (fun i k hi => by simp only [hi, if_false]) hw0 (Expr.dom_smooth.mpr ⟨s1, s2, s3, h1⟩)
    (by rw [← hd0]; exact At.self hg ((gradin.dom_defined _).mpr hgd)) hm).choose_spec.1.wf
  obtain ⟨hrs, hr⟩ := hr hw
  refine ⟨?_, hrs⟩
  obtain ⟨L, g1, g2, g3, g4⟩ := C04_grad_partial hv hw0 h1 s2 s3 hg hd0 ⟨m, hm⟩ env x s1 hgd
  have key : ∀ (d : Nat) (V : Env → Vec), d = e0.dim → V = (fun env => e0.val env) →
      ∃ L : (Fin v.dim → ℝ) →L[ℝ] (Fin d → ℝ),
        HasFDerivAt (fun y (k : Fin d) => V (setVar env v y) k) L x ∧ ∀ u : Fin v.dim → ℝ,
        ∑ k : Fin v.dim, r.val (setVar env v x) k * u k =
          ∑ k : Fin d, gradin.val (setVar env v x) k * L u k := by
    rintro _ _ rfl rfl
    refine ⟨L, g1, fun u => ?_⟩
    rw [← g4 u, (hr _).val]
  obtain ⟨L', k1, k2⟩ := key e.dim (fun env => e.val env) hdim hval
  refine ⟨L', k1, (hr env).dim.trans g2, ?_, k2⟩
  exact (r.dom_defined _).mp ((hr _).dom ((r0.dom_defined _).mpr g3))

/-- `Grad` comes to an end on formulas with factorizations. -/
theorem C04_factorized_terminates {e gradin : Expr} {v : VarId} (hv : 0 < v.dim) (he : e.WF)
    (hf : e.Scoped) (hg : gradin.WF) (hgf : gradin.FactFree) : (∃ r, r.WF ∧ Grads e v gradin r) ∨
      ∃ er, er ≠ .fuel ∧ ∃ n, grad n e v gradin = .error er := by
  obtain ⟨N, x, hx, hN, hw⟩ := diffT_fineF hv hf he hg hgf
  cases x with
  | ok r => exact .inl ⟨r, (hw r rfl).1, N, hN N (le_refl _)⟩
  | error er => exact .inr ⟨er, fun h => hx (h ▸ rfl), N, hN N (le_refl _)⟩

/-- The theorem applies to `a * b + a with a = Exp(b), with b = |x - y|^2`. -/
example (env : Env) (x : Fin 3 → ℝ) : ∃ r L, Grads (.fact (-2) 1 3 (.fact (-1) 1 3
    (.bin .add (.bin .mul (.var (-1) 1 3) (.var (-2) 1 3)) (.var (-1) 1 3)) (.un .exp (.var (-2) 1 3)))
    (.un .sum (.un .square (.bin .sub (.var 0 3 0) (.var 1 3 1))))) ⟨0, 3, 0⟩ (.var 2 1 0) r ∧
    IsGrad (.fact (-2) 1 3 (.fact (-1) 1 3
    (.bin .add (.bin .mul (.var (-1) 1 3) (.var (-2) 1 3)) (.var (-1) 1 3)) (.un .exp (.var (-2) 1 3)))
    (.un .sum (.un .square (.bin .sub (.var 0 3 0) (.var 1 3 1))))) ⟨0, 3, 0⟩ (.var 2 1 0) r env x L := by
  have hw : ∀ r, Grads _ _ _ r → _ := fun r hr => C04_factorized_partial (e := (.fact (-2) 1 3 (.fact (-1) 1 3
    (.bin .add (.bin .mul (.var (-1) 1 3) (.var (-2) 1 3)) (.var (-1) 1 3)) (.un .exp (.var (-2) 1 3)))
    (.un .sum (.un .square (.bin .sub (.var 0 3 0) (.var 1 3 1)))))) (v := ⟨0, 3, 0⟩) (gradin := .var 2 1 0)
    (r := r) (by decide) (by simp [Expr.WF, Expr.dim, Bin.dim, Un.dim, Bin.accept, Un.accept, dimsOk])
    (by simp [Expr.Scoped, Expr.FactFree, Expr.inds, Expr.vars, Expr.tempVars]) (by simp [Expr.NoBroadcast])
    (by simp [Expr.Uses]) (by simp [Expr.WF]) trivial rfl hr env x
    (by simp [Expr.Smooth, unSmooth, binSmooth]) trivial
  obtain ⟨r, hr⟩ : ∃ r, Grads (.fact (-2) 1 3 (.fact (-1) 1 3
    (.bin .add (.bin .mul (.var (-1) 1 3) (.var (-2) 1 3)) (.var (-1) 1 3)) (.un .exp (.var (-2) 1 3)))
    (.un .sum (.un .square (.bin .sub (.var 0 3 0) (.var 1 3 1))))) ⟨0, 3, 0⟩ (.var 2 1 0) r := ⟨_, 30, rfl⟩
  obtain ⟨⟨L, -, h⟩, -⟩ := hw r hr
  exact ⟨r, L, hr, h⟩

end Verif
