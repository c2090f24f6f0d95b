import Verif.Model.GradMatrix
import Verif.Proofs.Rename
import Verif.Props.Linear

/-!
# Matrices of gradients
-/

namespace Verif

open Spec Finset

/-! ## Concatenations -/

/-- `Concat(Concat(g, h), ...)`. -/
def concats (g : Expr) (gs : List Expr) : Expr := gs.foldl (.bin .concat) g

theorem concats_ok (gs : List Expr) (g : Expr) :
    gs.foldlM (fun res elem => mkBin .concat res elem) g = .ok (concats g gs) := by
  induction gs generalizing g with
  | nil => rfl
  | cons h t ih =>
    rw [List.foldlM_cons]
    exact ih _

theorem concats_val {D : Nat} (hD : 0 < D) {gs : List Expr} (hgs : ∀ h ∈ gs, h.dim = D) {g : Expr}
    (hg : 0 < g.dim) (env : Env) :
    (concats g gs).dim = g.dim + gs.length * D ∧
    (((concats g gs).Def env) ↔ g.Def env ∧ ∀ h ∈ gs, h.Def env) ∧
    (∀ k < g.dim, (concats g gs).val env k = g.val env k) ∧
    ∀ j (hj : j < gs.length), ∀ l < D, (concats g gs).val env (g.dim + j * D + l) = gs[j].val env l := by
  induction gs generalizing g with
  | nil => simp [concats]
  | cons h t ih =>
    have hh := hgs h (by simp)
    have hd : (Expr.bin .concat g h).dim = g.dim + D := by simp [Expr.dim, Bin.dim, hh]
    have hv : ∀ k, (Expr.bin .concat g h).val env k = if k < g.dim then g.val env k else h.val env (k - g.dim) := by
      intro k
      simp only [Expr.val, binVal, cst, hh]
      rw [if_neg (by omega)]
    obtain ⟨h1, h2, h3, h4⟩ := ih (fun k hk => hgs k (by simp [hk])) (g := .bin .concat g h) (by omega)
    have hc : concats g (h :: t) = concats (.bin .concat g h) t := rfl
    rw [hc]
    refine ⟨?_, ?_, ?_, ?_⟩
    · rw [h1, hd, List.length_cons, Nat.succ_mul]
      omega
    · rw [h2]
      simp only [Expr.Def, binDef, List.mem_cons, forall_eq_or_imp]
      tauto
    · intro k hk
      rw [h3 k (by omega), hv, if_pos hk]
    · intro j hj l hl
      cases j with
      | zero =>
        rw [Nat.zero_mul, Nat.add_zero, h3 _ (by omega), hv, if_neg (by omega), Nat.add_sub_cancel_left]
        rfl
      | succ j =>
        rw [List.getElem_cons_succ, ← h4 j (by simpa using hj) l hl, hd]
        congr 1
        rw [Nat.succ_mul]
        omega

/-! ## Substitution of the temporary variable -/

/-- The renumbering that gives the temporary variable the number `w`. -/
def tempSwap (i : Int) (c : Int) (w : Int) : Int × Int → Int × Int := Equiv.swap (i, c) (w, -1)

theorem tempSwap_inj (i c w : Int) : Function.Injective (tempSwap i c w) := Equiv.injective _

theorem replace_rename {t : VarId} {w : Int} {el : Expr} {env : Env} (hel : el.dim = t.dim)
    (hv : ∀ k, cst t.dim (el.val env) k = el.val env k) (hdef : el.Def env) {d : Expr} (hf : d.FactFree)
    (hd : ∀ p ∈ d.vars, p = (t.ind, t.dim, t.cat) ∨ ((p.1, p.2.2) ≠ (t.ind, t.cat) ∧ p.1 ≠ w)) :
    (d.replace t.expr el).dim = d.dim ∧
    (∀ k, (d.replace t.expr el).val env k =
      (d.rename (tempSwap t.ind t.cat w)).val (Function.update env w (el.val env)) k) ∧
    ((d.rename (tempSwap t.ind t.cat w)).Def (Function.update env w (el.val env)) →
      (d.replace t.expr el).Def env) := by
  induction d with
  | var i d' c =>
    rcases hd (i, d', c) (by simp [Expr.vars]) with h | ⟨h, h'⟩
    · simp only [Prod.mk.injEq] at h
      obtain ⟨rfl, rfl, rfl⟩ := h
      simp only [Expr.replace, if_true, hel, Expr.rename, tempSwap, Equiv.swap_apply_left, Expr.val,
        Function.update_self]
      exact ⟨rfl, fun k => (hv k).symm, fun _ => hdef⟩
    · have h1 : Expr.var i d' c ≠ t.expr := by
        intro h2
        simp only [Expr.var.injEq] at h2
        exact h (by simp [h2])
      have h2 : tempSwap t.ind t.cat w (i, c) = (i, c) :=
        Equiv.swap_apply_of_ne_of_ne h fun h3 => h' (by simp only [Prod.mk.injEq] at h3; exact h3.1)
      simp only [Expr.replace, if_neg h1, Expr.rename, h2, Expr.val, Function.update_of_ne h']
      exact ⟨trivial, fun _ => trivial, fun _ => trivial⟩
  | zero | int | rat => simp [Expr.replace, Expr.rename, Expr.val, Expr.Def]
  | un o f ih =>
    obtain ⟨h1, h2, h3⟩ := ih hf hd
    have h2 := funext h2
    simp only [Expr.replace, reduceCtorEq, if_false, Expr.rename, Expr.val, Expr.dim, Expr.Def, h1, h2,
      Expr.dim_rename]
    exact ⟨trivial, fun _ => trivial, fun h => ⟨h3 h.1, h.2⟩⟩
  | bin o f g ih1 ih2 =>
    obtain ⟨h1, h2, h3⟩ := ih1 hf.1 (fun p hp => hd p (by simp [Expr.vars, hp]))
    obtain ⟨k1, k2, k3⟩ := ih2 hf.2 (fun p hp => hd p (by simp [Expr.vars, hp]))
    have h2 := funext h2
    have k2 := funext k2
    simp only [Expr.replace, reduceCtorEq, if_false, Expr.rename, Expr.val, Expr.dim, Expr.Def, h1, h2, k1, k2,
      Expr.dim_rename]
    exact ⟨trivial, fun _ => trivial, fun h => ⟨h3 h.1, k3 h.2.1, h.2.2⟩⟩
  | tern o f g k ih1 ih2 ih3 =>
    obtain ⟨h1, h2, h3⟩ := ih1 hf.1 (fun p hp => hd p (by simp [Expr.vars, hp]))
    obtain ⟨k1, k2, k3⟩ := ih2 hf.2.1 (fun p hp => hd p (by simp [Expr.vars, hp]))
    obtain ⟨l1, l2, l3⟩ := ih3 hf.2.2 (fun p hp => hd p (by simp [Expr.vars, hp]))
    have h2 := funext h2
    have k2 := funext k2
    have l2 := funext l2
    simp only [Expr.replace, reduceCtorEq, if_false, Expr.rename, Expr.val, Expr.dim, Expr.Def, h1, h2, k1, k2, l1, l2,
      Expr.dim_rename]
    exact ⟨trivial, fun _ => trivial, fun h => ⟨h3 h.1, k3 h.2.1, l3 h.2.2.1, h.2.2.2⟩⟩
  | fact => exact hf.elim

/-- A renumbering that fixes the variables of a formula fixes the formula. -/
theorem Expr.rename_fix {ρ : Int × Int → Int × Int} {e : Expr} (hf : e.FactFree)
    (h : ∀ p ∈ e.vars, ρ (p.1, p.2.2) = (p.1, p.2.2)) : e.rename ρ = e := by
  induction e with
  | var i d c =>
    have := h (i, d, c) (by simp [Expr.vars])
    simp only [Expr.rename, this]
  | zero | int | rat => rfl
  | un o f ih => rw [Expr.rename, ih hf h]
  | bin o f g h1 h2 =>
    rw [Expr.rename, h1 hf.1 fun p hp => h p (by simp [Expr.vars, hp]),
      h2 hf.2 fun p hp => h p (by simp [Expr.vars, hp])]
  | tern o f g k h1 h2 h3 =>
    rw [Expr.rename, h1 hf.1 fun p hp => h p (by simp [Expr.vars, hp]),
      h2 hf.2.1 fun p hp => h p (by simp [Expr.vars, hp]), h3 hf.2.2 fun p hp => h p (by simp [Expr.vars, hp])]
  | fact => exact hf.elim

theorem mem_inds {e : Expr} {p : Int × Nat × Int} (h : p ∈ e.vars) : p.1 ∈ e.inds := by
  induction e with
  | var i d c => simp_all [Expr.vars, Expr.inds]
  | zero | int | rat => simp [Expr.vars] at h
  | un o f ih => exact ih h
  | bin o f g h1 h2 => simp only [Expr.vars, Expr.inds, List.mem_append] at h ⊢; exact h.imp h1 h2
  | tern o f g k h1 h2 h3 =>
    simp only [Expr.vars, Expr.inds, List.mem_append] at h ⊢
    exact h.imp h1 (Or.imp h2 h3)
  | fact i d c f g h1 h2 => simp only [Expr.vars, Expr.inds, List.mem_append] at h ⊢; exact h.imp h1 h2

theorem gradMatrixInd_fresh {f : Expr} {p : Int × Nat × Int} (h : p ∈ f.vars) (hp : p.2.2 = 3) :
    p.1 ≠ gradMatrixInd f := by
  have hm : p.1 ∈ (f.vars.filter fun t => decide (t.2.2 = 3)).map fun t => t.1 :=
    List.mem_map.2 ⟨p, List.mem_filter.2 ⟨h, by simpa using hp⟩, rfl⟩
  intro hi
  unfold gradMatrixInd at hi
  split at hi
  · rename_i hm'
    rw [List.max?_eq_none_iff.mp hm'] at hm
    cases hm
  · rename_i m hm'
    have := (List.max?_eq_some_iff.mp hm').2 _ hm
    omega

theorem standardBasis_eq (dim : Nat) :
    standardBasis dim = .ok ((List.range dim).map fun (i : Nat) => .un (.elemT dim i) (.int 1)) := by
  unfold standardBasis
  rw [show (fun i : Nat => mkUn (.elemT dim i) (intCst 1)) =
    fun i : Nat => (pure (Expr.un (.elemT dim i) (.int 1)) : Except Err Expr) from rfl, List.mapM_pure]
  rfl

/-- The result is a concatenation. -/
theorem gradMatrix_ok {n : Nat} {f r : Expr} {v : VarId} (hf : 0 < f.dim) (h : gradMatrix n f v = .ok r) :
    ∃ d, diffT n v f (.var (gradMatrixInd f) f.dim 3) = .ok d ∧
      r = concats (d.replace (.var (gradMatrixInd f) f.dim 3) (.un (.elemT f.dim 0) (.int 1)))
        ((List.range (f.dim - 1)).map fun (i : Nat) =>
          d.replace (.var (gradMatrixInd f) f.dim 3) (.un (.elemT f.dim (i + 1)) (.int 1))) := by
  unfold gradMatrix at h
  rw [standardBasis_eq] at h
  dsimp only at h
  obtain ⟨N, hN⟩ : ∃ N, f.dim = N + 1 := ⟨f.dim - 1, by omega⟩
  cases hd : diffT n v f (.var (gradMatrixInd f) f.dim 3) with
  | error er =>
    rw [hd, hN, List.range_succ_eq_map] at h
    simp only [List.map_cons, List.mapM_cons] at h
    cases h
  | ok d =>
    refine ⟨d, rfl, ?_⟩
    rw [hd] at h
    simp only [bind, Except.bind, pure, Except.pure] at h
    rw [show (fun e : Expr => (Except.ok (d.replace (.var (gradMatrixInd f) f.dim 3) e) : Except Err Expr)) =
      fun e : Expr => pure (d.replace (.var (gradMatrixInd f) f.dim 3) e) from rfl, List.mapM_pure] at h
    simp only [pure, Except.pure, List.map_map] at h
    have hr : List.range f.dim = 0 :: (List.range (f.dim - 1)).map Nat.succ := by
      conv_lhs => rw [hN, List.range_succ_eq_map]
      rw [hN, Nat.add_sub_cancel]
    rw [hr, List.map_cons] at h
    simp only [concats_ok, Except.ok.injEq] at h
    rw [← h, List.map_map]
    rfl

end Verif
