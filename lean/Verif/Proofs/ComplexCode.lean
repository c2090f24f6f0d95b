import Verif.Proofs.ComplexDiff

/-!
# Code of formulas with complex operations: helper lemmas
-/

namespace Verif.Cplx

open Spec

variable {M : CMath}

/-- The array of a child. -/
theorem child_vec {junk : Form → Nat → ℝ} {ins : Int → CArr} {env : Env} {f : Form}
    (hin : ∀ q ∈ f.vars, ins q.1 = vec q.2.1 (env q.1))
    (h : f.code M junk ins ((List.range f.dim).map (junk f)) = .ok (vec f.dim (f.val env))) :
    (f.input?.elim (f.code M junk ins ((List.range f.dim).map (junk f))) fun i => Except.ok (ins i)) =
      .ok (vec f.dim (f.val env)) := by
  cases f with
  | var i d c => exact congrArg Except.ok (hin (i, d, c) (List.mem_singleton.mpr rfl))
  | zero d => exact h
  | un o f => exact h
  | bin o f g => exact h

theorem Form.code_vec (hM : M.Exact) {junk : Form → Nat → ℝ} {ins : Int → CArr} {env : Env} (f : Form) (z : Vec)
    (hw : f.WF) (hd : f.Def env) (hin : ∀ q ∈ f.vars, ins q.1 = vec q.2.1 (env q.1)) :
    f.code M junk ins (vec f.dim z) = .ok (vec f.dim (f.val env)) := by
  induction f generalizing z with
  | var i d c =>
    have hi : ins i = vec d (env i) := hin (i, d, c) (List.mem_singleton.mpr rfl)
    show vectCopyAt (vec d z) 0 (vec d z).length (ins i) 0 = _
    rw [hi, vec_length, vectCopyAt_vec (by omega) (by omega)]
    congr 1
    apply vec_congr
    intro k hk
    have hk : k < d := hk
    rw [if_pos ⟨by omega, by omega⟩]
    show env i _ = env i _
    congr 1
    omega
  | zero d => exact fill_vec
  | un o f ih =>
    have h := ih (junk f) hw.1 hd.1 hin
    simp only [Form.code]
    rw [child_vec (f := f) hin h]
    exact Un.op_vec hM hw.1.pos hw.2.1 hd.2 hw.2.2
  | bin o f g ih1 ih2 =>
    have hf : ∀ q ∈ f.vars, ins q.1 = vec q.2.1 (env q.1) := fun q hq => hin q (List.mem_append_left _ hq)
    have hg : ∀ q ∈ g.vars, ins q.1 = vec q.2.1 (env q.1) := fun q hq => hin q (List.mem_append_right _ hq)
    have h1 := ih1 (junk f) hw.1 hd.1 hf
    have h2 := ih2 (junk g) hw.2.1 hd.2.1 hg
    simp only [Form.code]
    rw [child_vec hf h1, child_vec hg h2]
    exact Bin.op_vec hM hw.1.pos hw.2.1.pos hw.2.2 hd.2.2

end Verif.Cplx
