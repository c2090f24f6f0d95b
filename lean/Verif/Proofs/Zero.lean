import Verif.Model.Zero
import Verif.Proofs.Gpu1D
import Mathlib.Data.List.ProdSigma
import Mathlib.Algebra.BigOperators.Group.List.Basic

/-! Routines that fill the output with zeros. -/

namespace Verif

variable {V : Type} [Zero V]

/-- Cells of the rows that are written are 0, the others are not changed. -/
theorem cpuAssignZero_apply (d : Nat) (rows : List Nat) (out : Mem V) (p : Nat) :
    ((∃ i ∈ rows, i * d ≤ p ∧ p < i * d + d) → cpuAssignZero d rows out p = 0) ∧
    ((¬ ∃ i ∈ rows, i * d ≤ p ∧ p < i * d + d) → cpuAssignZero d rows out p = out p) := by
  unfold cpuAssignZero
  induction rows generalizing out with
  | nil => simp
  | cons r rs ih =>
    obtain ⟨h1, h2⟩ := ih (onSlice (r * d) (fun o => vectFill d o 0) out)
    have hr : onSlice (r * d) (fun o => vectFill d o (0 : V)) out p =
        if r * d ≤ p ∧ p < r * d + d then 0 else out p := by
      rw [onSlice_apply]
      by_cases ha : r * d ≤ p
      · rw [if_pos ha, vectFill_apply]
        by_cases hb : p < r * d + d
        · rw [if_pos (by omega), if_pos ⟨ha, hb⟩]
        · rw [if_neg (by omega), if_neg (fun h => hb h.2)]
          congr 1
          omega
      · rw [if_neg ha, if_neg (fun h => ha h.1)]
    simp only [List.foldl_cons, List.mem_cons, exists_eq_or_imp]
    by_cases hin : ∃ i ∈ rs, i * d ≤ p ∧ p < i * d + d
    · exact ⟨fun _ => h1 hin, fun h => absurd (Or.inr hin) h⟩
    · rw [h2 hin, hr]
      by_cases hc : r * d ≤ p ∧ p < r * d + d
      · rw [if_pos hc]
        exact ⟨fun _ => rfl, fun h => absurd (Or.inl hc) h⟩
      · rw [if_neg hc]
        exact ⟨fun h => (h.elim hc hin).elim, fun _ => rfl⟩

/-- All the rows are written. -/
theorem cpuAssignZero_rows {d n : Nat} {rows : List Nat} (h : ∀ i, i ∈ rows ↔ i < n) (out : Mem V) (p : Nat) :
    cpuAssignZero d rows out p = if p < n * d then 0 else out p := by
  obtain ⟨h1, h2⟩ := cpuAssignZero_apply d rows out p
  by_cases hp : p < n * d
  · have hd : 0 < d := Nat.pos_of_ne_zero (by rintro rfl; simp at hp)
    rw [if_pos hp]
    refine h1 ⟨p / d, (h _).mpr (Nat.div_lt_of_lt_mul (by rwa [Nat.mul_comm])), Nat.div_mul_le_self p d, ?_⟩
    have := Nat.lt_mul_div_succ p hd
    rw [Nat.mul_succ, Nat.mul_comm] at this
    exact this
  · rw [if_neg hp]
    refine h2 ?_
    rintro ⟨i, hi, h3, h4⟩
    have h5 : (i + 1) * d ≤ n * d := Nat.mul_le_mul_right d ((h i).mp hi)
    rw [Nat.succ_mul] at h5
    omega

theorem trueNx_eq (s : List Nat) : trueNx s = s.dropLast.prod := by
  have key : ∀ k ≤ s.length, forRange k (fun k n => n * s.getD k 0) 1 = (s.take k).prod := by
    intro k hk
    induction k with
    | zero => simp [forRange]
    | succ k ih =>
      have : forRange (k + 1) (fun k n => n * s.getD k 0) 1 = forRange k (fun k n => n * s.getD k 0) 1 * s.getD k 0 := by
        simp [forRange, List.range_succ]
      rw [this, ih (by omega), List.take_add_one, List.prod_append]
      congr 1
      rw [List.getElem?_eq_getElem (by omega)]
      simp [List.getD, List.getElem?_eq_getElem (show k < s.length by omega)]
  unfold trueNx
  rw [key _ (by omega), List.dropLast_eq_take]

/-- The GPU kernel writes the rows in some order. -/
theorem gpuAssignZero_eq (d B nx : Nat) (sched : List (Nat × Nat)) (out : Mem V) :
    gpuAssignZero d B nx sched out =
      cpuAssignZero d ((sched.map fun bt => bt.1 * B + bt.2).filter (· < nx)) out := by
  unfold gpuAssignZero cpuAssignZero
  induction sched generalizing out with
  | nil => rfl
  | cons s ss ih =>
    simp only [List.foldl_cons, List.map_cons]
    rw [ih, List.filter_cons]
    by_cases h : s.1 * B + s.2 < nx <;> simp [h]

theorem zeroNx_eq (argshapes : List (List Nat)) (nx ny d tagI : Nat) :
    zeroNx argshapes nx ny d tagI = (launchSizes tagI nx ny).1 := by
  simp [zeroNx, mkSizes, nbatchdimsOf, Mem.set]

/-- The rows written by the kernel: those of one batch. -/
theorem gpuZero_apply {d : Nat} {argshapes : List (List Nat)} {nx ny tagI : Nat} {out out' : Mem V}
    (h : GpuZero d argshapes nx ny tagI out out') (p : Nat) :
    out' p = if p < (launchSizes tagI nx ny).1 * d then 0 else out p := by
  obtain ⟨B, hB, sched, hs⟩ := h
  rw [gpuAssignZero_eq, cpuAssignZero_rows (n := (launchSizes tagI nx ny).1)]
  intro i
  rw [zeroNx_eq] at hs
  rw [zeroNx_eq]
  simp only [List.mem_filter, List.mem_map, decide_eq_true_eq]
  refine ⟨fun h => h.2, fun hi => ⟨⟨(i / B, i % B), ?_, ?_⟩, hi⟩⟩
  · rw [hs.mem_iff, List.pair_mem_product]
    exact ⟨List.mem_range.mpr (gridSize_covers hB hi), List.mem_range.mpr (Nat.mod_lt _ hB)⟩
  · exact Nat.div_add_mod' i B

end Verif
