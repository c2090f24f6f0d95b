import Verif.Proofs.Lawful

/-! Sequences of writes of rows of width `d`. -/

namespace Verif

variable {V : Type}

/-- `g` writes the cells `0..d-1`, with values that do not depend on the previous content. -/
def RowLocal (d : Nat) (g : Mem V → Mem V) : Prop :=
  ∀ o o' p, (p < d → g o p = g o' p) ∧ (d ≤ p → g o p = o p)

/-- Execution of the writes `L` in order. -/
def runWrites (d : Nat) (L : List (Nat × (Mem V → Mem V))) (out : Mem V) : Mem V :=
  L.foldl (fun out w => onSlice (w.1 * d) w.2 out) out

theorem runWrites_append (d : Nat) (L L' : List (Nat × (Mem V → Mem V))) (out : Mem V) :
    runWrites d (L ++ L') out = runWrites d L' (runWrites d L out) := by
  simp [runWrites, List.foldl_append]

theorem row_disjoint {d i i' k : Nat} (hne : i ≠ i') (hk : k < d) :
    ¬ (i' * d ≤ i * d + k ∧ i * d + k < i' * d + d) := by
  rintro ⟨h1, h2⟩
  rcases Nat.lt_or_gt_of_ne hne with h | h
  · have : (i + 1) * d ≤ i' * d := Nat.mul_le_mul_right d h
    rw [Nat.succ_mul i] at this; omega
  · have : (i' + 1) * d ≤ i * d := Nat.mul_le_mul_right d h
    rw [Nat.succ_mul i'] at this; omega

theorem onSlice_row_other {d : Nat} {g : Mem V → Mem V} (hg : RowLocal d g) (out : Mem V)
    {i p : Nat} (hp : ¬ (i * d ≤ p ∧ p < i * d + d)) : onSlice (i * d) g out p = out p := by
  rw [onSlice_apply]
  split
  · next hle =>
    rw [(hg _ (fun _ => out 0) (p - i * d)).2 (by omega)]
    congr 1; omega
  · rfl

theorem runWrites_frame {d : Nat} {L : List (Nat × (Mem V → Mem V))}
    (hL : ∀ w ∈ L, RowLocal d w.2) (out : Mem V) {p : Nat}
    (hp : ∀ w ∈ L, ¬ (w.1 * d ≤ p ∧ p < w.1 * d + d)) : runWrites d L out p = out p := by
  induction L generalizing out with
  | nil => rfl
  | cons w L ih =>
    have := ih (fun w hw => hL w (by simp [hw])) (onSlice (w.1 * d) w.2 out)
      (fun w hw => hp w (by simp [hw]))
    simp only [runWrites, List.foldl_cons] at this ⊢
    rw [this]
    exact onSlice_row_other (hL w (by simp)) out (hp w (by simp))

/-- The last write of row `i` decides its content. -/
theorem runWrites_last {d : Nat} {L1 L2 : List (Nat × (Mem V → Mem V))} {i : Nat}
    {g : Mem V → Mem V} (h2 : ∀ w ∈ L2, RowLocal d w.2) (hg : RowLocal d g)
    (hi : ∀ w ∈ L2, w.1 ≠ i) (out : Mem V) {k : Nat} (hk : k < d) (o : Mem V) :
    runWrites d (L1 ++ (i, g) :: L2) out (i * d + k) = g o k := by
  rw [runWrites_append]
  have : runWrites d ((i, g) :: L2) (runWrites d L1 out) =
      runWrites d L2 (onSlice (i * d) g (runWrites d L1 out)) := rfl
  rw [this, runWrites_frame h2]
  · rw [onSlice_apply, if_pos (by omega), show i * d + k - i * d = k by omega]
    exact (hg _ _ k).1 hk
  · intro w hw
    exact row_disjoint (fun h => hi w hw h.symm) hk

/-- If all the writes of row `i` agree (for instance when there is only one), row `i` contains
their common value. -/
theorem runWrites_row {d : Nat} {L : List (Nat × (Mem V → Mem V))} {i : Nat} {o val : Mem V}
    (hL : ∀ w ∈ L, RowLocal d w.2) (hmem : ∃ w ∈ L, w.1 = i)
    (hval : ∀ w ∈ L, w.1 = i → ∀ k < d, w.2 o k = val k) (out : Mem V) {k : Nat} (hk : k < d) :
    runWrites d L out (i * d + k) = val k := by
  induction L generalizing out with
  | nil => simp at hmem
  | cons w L ih =>
    by_cases hin : ∃ w ∈ L, w.1 = i
    · exact ih (fun w hw => hL w (by simp [hw])) hin (fun w hw => hval w (by simp [hw])) _
    · have hw : w.1 = i := by
        obtain ⟨u, hu, he⟩ := hmem
        rcases List.mem_cons.mp hu with rfl | hu
        · exact he
        · exact absurd ⟨u, hu, he⟩ hin
      have := runWrites_last (L1 := []) (L2 := L) (i := i) (g := w.2)
        (fun u hu => hL u (by simp [hu])) (hL w (by simp))
        (fun u hu he => hin ⟨u, hu, he⟩) out hk o
      rw [← hval w (by simp) hw k hk, ← this]
      subst hw
      rfl

theorem FinLocal.rowLocal {R : Red V} (h : FinLocal R) (acc : Mem V) : RowLocal R.dim (R.fin acc) :=
  fun o o' p => h acc o o' p |>.imp id (fun h' => h')

end Verif
