import Verif.Spec.Vmap
import Verif.Props.Backward
import Verif.Proofs.BackwardBatch

/-!
# Arrays given to a call by `vmap`
-/

namespace Verif

open Finset Spec

/-- The arguments given by `vmap` to the call. -/
abbrev vmapArgs (inds : List (Option Nat)) (arrs : List (Spec.Arr ℝ)) : List (Spec.Arr ℝ) := List.zipWith vmapArg inds arrs

/-- The arguments of the call number `l` of the loop. -/
abbrev loopArgs (l : Nat) (inds : List (Option Nat)) (arrs : List (Spec.Arr ℝ)) : List (Spec.Arr ℝ) :=
  List.zipWith (loopArg l) inds arrs

/-- The shapes of arrays. -/
abbrev shapesOf (arrs : List (Spec.Arr ℝ)) : List (List Nat) := arrs.map (·.shape)

/-- The arguments of a call inside `vmap`: mapped along their first or second axis, of length `B`, or not mapped; the
shapes of the slices are those of a call with batch dimensions `batch`. -/
def VmapFits (L : List (Int × Nat × Int)) (inds : List (Option Nat)) (arrs : List (Spec.Arr ℝ)) (B : Nat)
    (batch : List Nat) (m n : Nat) : Prop :=
  ∀ u ∈ L, ∃ a ind xb, arrs[u.1.toNat]? = some a ∧ inds[u.1.toNat]? = some ind ∧ Broadcasts xb batch ∧
    (∀ j, ind = some j → j ≤ 1 ∧ a.shape[j]? = some B) ∧
    (loopArg 0 ind a).shape = xb ++ tailShape u.2.2 (if u.2.2 = 1 then n else m) u.2.1

theorem loopArg_shape (l : Nat) (ind : Option Nat) (a : Spec.Arr ℝ) : (loopArg l ind a).shape = (loopArg 0 ind a).shape := by
  cases ind <;> rfl

theorem shapes_at {f : Option Nat → Spec.Arr ℝ → Spec.Arr ℝ} {inds : List (Option Nat)} {arrs : List (Spec.Arr ℝ)} {q : Nat}
    {a : Spec.Arr ℝ} {ind : Option Nat} (ha : arrs[q]? = some a) (hi : inds[q]? = some ind) :
    (List.zipWith f inds arrs)[q]? = some (f ind a) ∧ (shapesOf (List.zipWith f inds arrs)).getD q [] = (f ind a).shape := by
  have : (List.zipWith f inds arrs)[q]? = some (f ind a) := by simp [List.getElem?_zipWith, ha, hi]
  refine ⟨this, ?_⟩
  rw [List.getD_eq_getElem?_getD, List.getElem?_map, this]
  rfl

/-- The first dimension of a mapped argument. -/
theorem vmapArg_shape {a : Spec.Arr ℝ} {B : Nat} {ind : Option Nat} (hB : 0 < B)
    (hj : ∀ j, ind = some j → j ≤ 1 ∧ a.shape[j]? = some B) :
    ∃ x, (x = B ∨ x = 1) ∧ (vmapArg ind a).shape = x :: (loopArg 0 ind a).shape := by
  have ht := (vmapArg_slice hB hj).1
  simp only [batchSlice] at ht
  cases ind with
  | none => exact ⟨1, .inr rfl, rfl⟩
  | some j =>
    obtain ⟨h1, h2⟩ := hj j rfl
    refine ⟨B, .inl rfl, ?_⟩
    rcases hs : a.shape with _ | ⟨n, s⟩
    · simp [hs] at h2
    · have : (vmapArg (some j) a).shape.head? = some B := by
        rw [hs] at h2
        simp only [vmapArg, swap0, hs, h2]
        obtain rfl | rfl : j = 0 ∨ j = 1 := by omega
        · simpa using h2
        · simp
      rw [← ht]
      cases hv : (vmapArg (some j) a).shape with
      | nil => simp [hv] at this
      | cons y ys =>
        simp only [hv, List.head?_cons, Option.some.injEq] at this
        simp [this]

section

variable {L : List (Int × Nat × Int)} {inds : List (Option Nat)} {arrs : List (Spec.Arr ℝ)} {B : Nat} {batch : List Nat}
  {m n : Nat}

theorem VmapFits.vmapped (h : VmapFits L inds arrs B batch m n) (hB : 0 < B) :
    CallShapes L (shapesOf (vmapArgs inds arrs)) (B :: batch) m n := fun u hu => by
  obtain ⟨a, ind, xb, ha, hi, hx, hj, hs⟩ := h u hu
  obtain ⟨x, hxB, hv⟩ := vmapArg_shape hB hj
  refine ⟨x :: xb, .cons ⟨hB, hxB⟩ hx, ?_⟩
  rw [(shapes_at ha hi).2, hv, hs]
  rfl

theorem VmapFits.loop (h : VmapFits L inds arrs B batch m n) (l : Nat) :
    CallShapes L (shapesOf (loopArgs l inds arrs)) batch m n := fun u hu => by
  obtain ⟨a, ind, xb, ha, hi, hx, hj, hs⟩ := h u hu
  exact ⟨xb, hx, by rw [(shapes_at ha hi).2, loopArg_shape, hs]⟩

/-- The values of the variables in the batch `l :: b` of the call given by `vmap` are those in the batch `b` of the call
number `l` of the loop. -/
theorem vmap_read (hl : PlainVars L) (h : VmapFits L inds arrs B batch m n) {mem memL : Nat → Nat → ℝ} {l : Nat} (hB : l < B)
    (hm : Stored mem (vmapArgs inds arrs)) (hL : Stored memL (loopArgs l inds arrs)) {b : List Nat} (hb : Arr.Idx batch b)
    {p : Nat × Nat} (h1 : p.1 < m) (h2 : p.2 < n) :
    readBatch L (shapesOf (vmapArgs inds arrs)) mem (l :: b) p = readBatch L (shapesOf (loopArgs l inds arrs)) memL b p := by
  funext w k
  unfold readBatch
  cases hf : L.find? fun u => u.1 = w with
  | none => rfl
  | some u =>
    have hu := List.mem_of_find?_eq_some hf
    obtain ⟨a, ind, xb, ha, hi, hx, hj, hs⟩ := h u hu
    obtain ⟨x, hxB, hv⟩ := vmapArg_shape (by omega) hj
    dsimp only
    by_cases hk : k < u.2.1
    · rw [if_pos hk, if_pos hk]
      have ht : Arr.Idx (tailShape u.2.2 (if u.2.2 = 1 then n else m) u.2.1)
          (if u.2.2 = 2 then [k] else [rowAt u.2.2 p, k]) := by
        unfold tailShape
        by_cases hc : u.2.2 = 2
        · rw [if_pos hc, if_pos hc]
          exact .cons hk .nil
        · rw [if_neg hc, if_neg hc]
          refine .cons ?_ (.cons hk .nil)
          rcases hl.cat u hu with h' | h' | h' <;> simp [h', rowAt] <;> omega
      obtain ⟨g1, s1⟩ := shapes_at (f := vmapArg) ha hi
      obtain ⟨g2, s2⟩ := shapes_at (f := loopArg l) ha hi
      rw [hv, hs] at s1
      rw [loopArg_shape, hs] at s2
      have hxB' : Broadcasts (x :: xb) (B :: batch) := .cons ⟨by omega, hxB⟩ hx
      have hb' : Arr.Idx (B :: batch) (l :: b) := .cons hB hb
      set T := tailShape u.2.2 (if u.2.2 = 1 then n else m) u.2.1 with hT
      set t := if u.2.2 = 2 then [k] else [rowAt u.2.2 p, k] with ht'
      rw [at'_append (xb := x :: xb) (T := T) s1 hxB' hb' ht, at'_append (xb := xb) (T := T) s2 hx hb ht]
      dsimp only
      have i2 : Arr.Idx (xb ++ T) (clipB xb b ++ t) := List.rel_append (clip_idx hx hb) ht
      have i1 : Arr.Idx (x :: xb ++ T) (clipB (x :: xb) (l :: b) ++ t) := List.rel_append (clip_idx hxB' hb') ht
      have v1 := hm _ _ g1 (clipB (x :: xb) (l :: b) ++ t) (by rw [hv, hs]; exact i1)
      have v2 := hL _ _ g2 (clipB xb b ++ t) (by rw [loopArg_shape, hs]; exact i2)
      rw [hv, hs] at v1
      rw [loopArg_shape, hs] at v2
      rw [s1, s2]
      refine (v1.trans ?_).trans v2.symm
      have := (vmapArg_slice hB hj).2 (clipB xb b ++ t) (by simp only [batchSlice, hv, hs, List.tail_cons]; exact i2)
      rw [← this]
      simp only [batchSlice, hv, List.head?_cons, Option.some.injEq]
      rfl
    · rw [if_neg hk, if_neg hk]

/-- Without batch dimensions. -/
theorem readBatch_nil (hl : PlainVars L) {shapes : List (List Nat)} (hs : CallShapes L shapes [] m n)
    (args : Nat → Nat → ℝ) {p : Nat × Nat} (h1 : p.1 < m) (h2 : p.2 < n) :
    readBatch L shapes args [] p = readEnv L args p := by
  funext w k
  rcases hf : L.find? fun u => u.1 = w with - | u
  · simp [readEnv, readBatch, hf]
  · have hw : u.1 = w := by simpa using List.find?_some hf
    have hu := List.mem_of_find?_eq_some hf
    subst hw
    obtain ⟨xb, hx, hsu⟩ := hs u hu
    rw [readEnv_at hl hu, readBatch_at hl hu .nil hx hsu h1 h2]
    cases hx
    simp [Spec.pos]

/-- The calls of the loop have the batch dimensions of the call given by `vmap`, but the first one. -/
theorem VmapFits.callBatch {r : Expr} (hv : ∀ t ∈ r.vars, t ∈ L) (h : VmapFits L inds arrs B batch m n) (hB : 0 < B) (l : Nat)
    (hc : CallBatch r (shapesOf (vmapArgs inds arrs)) (B :: batch)) (hne : batch ≠ []) :
    CallBatch r (shapesOf (loopArgs l inds arrs)) batch := by
  have key : ∀ u ∈ r.vars, ∃ x, (x = B ∨ x = 1) ∧ (shapesOf (vmapArgs inds arrs)).getD u.1.toNat [] =
      x :: (shapesOf (loopArgs l inds arrs)).getD u.1.toNat [] := fun u hu => by
    obtain ⟨a, ind, xb, ha, hi, hx, hj, hs⟩ := h u (hv u hu)
    obtain ⟨x, hxB, hvs⟩ := vmapArg_shape hB hj
    exact ⟨x, hxB, by rw [(shapes_at ha hi).2, (shapes_at ha hi).2, hvs, loopArg_shape l]⟩
  refine ⟨hne, hc.axes, fun c hcl => ?_, fun u hu => ?_⟩
  · rcases hc.attained (c + 1) (by simpa using hcl) with h1 | ⟨u, hu, h1⟩
    · exact .inl (by simpa using h1)
    · obtain ⟨x, -, e⟩ := key u hu
      rw [e] at h1
      exact .inr ⟨u, hu, by simpa using h1⟩
  · obtain ⟨x, hx, e⟩ := key u hu
    have h1 := hc.int32 u hu
    rw [e] at h1
    cases hs : (shapesOf (loopArgs l inds arrs)).getD u.1.toNat [] with
    | nil => simp
    | cons y ys =>
      rw [hs, List.dropLast_cons_cons, List.prod_cons] at h1
      exact lt_of_le_of_lt (Nat.le_mul_of_pos_left _ (by omega)) h1

end

end Verif
