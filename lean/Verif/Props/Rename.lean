import Verif.Proofs.Rename
import Verif.Props.Diff

/-!
# C74: the numbers of the variables do not matter
-/

namespace Verif

open Spec

/-- Renaming of a result: an exception stays the same exception. -/
def Spec.renamed (ρ : Int × Int → Int × Int) : Except Err Expr → Except Err Expr
  | .ok e => .ok (e.rename ρ)
  | .error er => .error er

theorem Ex.renamed {ρ : Int × Int → Int × Int} {x y : Except Err Expr} (h : Ex ρ x y) : y = Spec.renamed ρ x := by
  rw [h]
  cases x <;> rfl

/-- **C74**, construction. Give other numbers to the arguments of a routine, or exchange the roles of `i` and `j`,
without confusing two variables: the formula is accepted if and only if it was, with the same exception otherwise, and
all the simplifications made while it is built are the same. -/
theorem C74_build {ρ : Int × Int → Int × Int} (hρ : Function.Injective ρ) (n : Nat) (t : Term) :
    (t.rename ρ).compile n = renamed ρ (t.compile n) :=
  (compile_rename hρ n t).renamed

/-- **C74**, derivatives. The gradient with respect to the renumbered variable is the renumbered gradient; it is
refused if and only if it was, with the same exception. -/
theorem C74_grad {ρ : Int × Int → Int × Int} (hρ : Function.Injective ρ) (n : Nat) {e : Expr} (he : e.WF)
    (hf : e.FactFree) (v : VarId) (gradin : Expr) :
    grad n (e.rename ρ) (v.rename ρ) (gradin.rename ρ) = renamed ρ (grad n e v gradin) :=
  (diffT_rename hρ n v e he hf gradin).renamed

/-- **C74**, values. The renumbered formula has the same value, when the arguments are passed in the new order. -/
theorem C74_values {σ : Int → Int} (hσ : Function.Injective σ) (e : Expr) {env env' : Env}
    (h : ∀ i, env' (σ i) = env i) :
    (e.rename (renum σ)).dim = e.dim ∧ (e.rename (renum σ)).val env' = e.val env ∧
      ((e.rename (renum σ)).Def env' ↔ e.Def env) := by
  refine ⟨Expr.dim_rename e, ?_⟩
  induction e generalizing env env' with
  | var i d c => exact ⟨by simp only [Expr.rename, renum, Expr.val, h], Iff.rfl⟩
  | zero d => exact ⟨rfl, Iff.rfl⟩
  | int m => exact ⟨rfl, Iff.rfl⟩
  | rat p q => exact ⟨rfl, Iff.rfl⟩
  | un o f ih =>
    obtain ⟨a, b⟩ := ih h
    exact ⟨by simp only [Expr.rename, Expr.val, Expr.dim_rename, a],
      by simp only [Expr.rename, Expr.Def, Expr.dim_rename, a, b]⟩
  | bin o f g ih ih' =>
    obtain ⟨a, b⟩ := ih h
    obtain ⟨a', b'⟩ := ih' h
    exact ⟨by simp only [Expr.rename, Expr.val, Expr.dim_rename, a, a'],
      by simp only [Expr.rename, Expr.Def, Expr.dim_rename, a, b, a', b']⟩
  | tern o f g k ih ih' ih'' =>
    obtain ⟨a, b⟩ := ih h
    obtain ⟨a', b'⟩ := ih' h
    obtain ⟨a'', b''⟩ := ih'' h
    exact ⟨by simp only [Expr.rename, Expr.val, a, a', a''],
      by simp only [Expr.rename, Expr.Def, Expr.dim, Expr.dim_rename, a, b, a', b', a'', b'']⟩
  | fact i d c f g ih ih' =>
    obtain ⟨a, b⟩ := ih' h
    have hu : ∀ k, Function.update env' (σ i) (g.val env) (σ k) = Function.update env i (g.val env) k := by
      intro k
      by_cases hk : k = i
      · subst hk
        simp
      · rw [Function.update_of_ne (fun e => hk (hσ e)), Function.update_of_ne hk, h]
    obtain ⟨a', b'⟩ := ih hu
    exact ⟨by simp only [Expr.rename, Expr.val, renum, a, a'],
      by simp only [Expr.rename, Expr.Def, renum, a, b, b']⟩

/-- **C74**, exchange of `i` and `j`: the categories have no effect on the values. -/
theorem C74_swap (e : Expr) (env : Env) :
    (e.rename swapIJ).dim = e.dim ∧ (e.rename swapIJ).val env = e.val env ∧
      ((e.rename swapIJ).Def env ↔ e.Def env) := by
  refine ⟨Expr.dim_rename e, ?_⟩
  induction e generalizing env with
  | var i d c => exact ⟨rfl, Iff.rfl⟩
  | zero d => exact ⟨rfl, Iff.rfl⟩
  | int m => exact ⟨rfl, Iff.rfl⟩
  | rat p q => exact ⟨rfl, Iff.rfl⟩
  | un o f ih =>
    exact ⟨by simp only [Expr.rename, Expr.val, Expr.dim_rename, (ih env).1],
      by simp only [Expr.rename, Expr.Def, Expr.dim_rename, (ih env).1, (ih env).2]⟩
  | bin o f g ih ih' =>
    exact ⟨by simp only [Expr.rename, Expr.val, Expr.dim_rename, (ih env).1, (ih' env).1],
      by simp only [Expr.rename, Expr.Def, Expr.dim_rename, (ih env).1, (ih env).2, (ih' env).1, (ih' env).2]⟩
  | tern o f g k ih ih' ih'' =>
    exact ⟨by simp only [Expr.rename, Expr.val, (ih env).1, (ih' env).1, (ih'' env).1],
      by simp only [Expr.rename, Expr.Def, Expr.dim, Expr.dim_rename, (ih env).1, (ih env).2, (ih' env).1,
        (ih' env).2, (ih'' env).1, (ih'' env).2]⟩
  | fact i d c f g ih ih' =>
    exact ⟨by simp only [Expr.rename, Expr.val, swapIJ, (ih _).1, (ih' env).1],
      by simp only [Expr.rename, Expr.Def, swapIJ, (ih _).2, (ih' env).1, (ih' env).2]⟩

theorem Spec.renum_injective {σ : Int → Int} (hσ : Function.Injective σ) : Function.Injective (renum σ) :=
  fun _ _ h => Prod.ext (hσ (congrArg Prod.fst h)) (congrArg (fun q => q.2) h)

theorem Spec.swapIJ_injective : Function.Injective swapIJ := by
  rintro ⟨i, c⟩ ⟨j, d⟩ h
  simp only [swapIJ, Prod.mk.injEq] at h
  obtain ⟨rfl, h⟩ := h
  simp only [Prod.mk.injEq, true_and]
  split_ifs at h <;> omega

/-- **C74**, result of a routine: if the user numbers the arguments of a formula by `σ` and passes them in this
order, what is computed at each point `k` of the output is unchanged; similarly with `i` and `j` exchanged. -/
theorem C74_result (n : Nat) (t : Term) (e : Expr) (he : t.compile n = .ok e) :
    (∀ σ : Int → Int, Function.Injective σ → ∃ e', (t.rename (renum σ)).compile n = .ok e' ∧ e'.dim = e.dim ∧
      ∀ env env' : Env, (∀ i, env' (σ i) = env i) → e'.val env' = e.val env ∧ (e'.Def env' ↔ e.Def env)) ∧
    ∃ e', (t.rename swapIJ).compile n = .ok e' ∧ e'.dim = e.dim ∧
      ∀ env : Env, e'.val env = e.val env ∧ (e'.Def env ↔ e.Def env) := by
  refine ⟨fun σ hσ => ⟨e.rename (renum σ), ?_, Expr.dim_rename e, fun env env' h => (C74_values hσ e h).2⟩,
    e.rename swapIJ, ?_, Expr.dim_rename e, fun env => (C74_swap e env).2⟩
  · rw [C74_build (renum_injective hσ), he]
    rfl
  · rw [C74_build swapIJ_injective, he]
    rfl

/-- Exchange of the two arguments of `Exp(-|x-y|²)`, whose numbers become `1` and `0`: the formula is the one where `x` and `y`
are exchanged. -/
example : (Term.rename (renum fun i => 1 - i) (.un .exp (.un .minus (.sqDist (.var 0 3 0) (.var 1 3 1))))) =
      .un .exp (.un .minus (.sqDist (.var 1 3 0) (.var 0 3 1))) ∧
    Function.Injective (renum fun i : Int => 1 - i) ∧
    ∃ e, (Term.un .exp (.un .minus (.sqDist (.var 0 3 0) (.var 1 3 1)))).compile 20 = .ok e := by
  refine ⟨rfl, renum_injective fun a b h => ?_, ?_⟩
  · have : 1 - a = 1 - b := h
    omega
  · exact ⟨_, rfl⟩

/-- If two variables are confused, the formula can change: `x - y` is zero when `x` and `y` get the same number. -/
example : (Term.rename (fun _ => (0, 0)) (.bin .sub (.var 0 3 0) (.var 1 3 0))).compile 20 = .ok (.zero 3) := by
  decide +kernel

end Verif
