import Verif.Model.XReal
import Verif.Proofs.Lawful
import Mathlib.Algebra.BigOperators.Ring.List
import Mathlib.Algebra.Order.BigOperators.Group.List

/-! The log-sum-exp accumulator. -/

namespace Verif

open XR

/-- Real value of a finite element. -/
noncomputable def XR.val : XR → ℝ
  | .fin r => r
  | _ => 0

/-- All the entries of an item are finite. -/
def FinItem (dG : Nat) (x : Mem XR) : Prop := ∀ k < 1 + dG, x k = fin (x k).val

/-- `(m, s)` is the accumulator of the items: `m` their maximum and `s` the shifted sums. -/
def LseOk (dG : Nat) (xs : List (Nat × Mem XR)) (acc : Mem XR) : Prop :=
  (xs = [] ∧ acc 0 = ninf ∧ ∀ k < dG, acc (1 + k) = fin 0) ∨
  (xs ≠ [] ∧ ∃ M : ℝ, acc 0 = fin M ∧ (∀ x ∈ xs, (x.2 0).val ≤ M) ∧ (∃ x ∈ xs, (x.2 0).val = M) ∧
    ∀ k < dG, acc (1 + k) =
      fin (xs.map (fun x => Real.exp ((x.2 0).val - M) * (x.2 (1 + k)).val)).sum)

def LseAcc (dG : Nat) (xs : List (Nat × Mem XR)) (acc : Mem XR) : Prop :=
  (∀ x ∈ xs, FinItem dG x.2) → LseOk dG xs acc

theorem forStride_set {V : Type} (n : Nat) (h : V → Nat → V) (acc : Mem V) (p : Nat) :
    forStride 1 1 n (fun k (acc : Mem V) => acc.set k (h (acc k) k)) acc p =
      if 1 ≤ p ∧ p < 1 + n then h (acc p) p else acc p := by
  induction n with
  | zero => simp; intro h1 h2; omega
  | succ n ih =>
    rw [forStride_succ, Nat.mul_one, Mem.set_apply]
    have key : forStride 1 1 n (fun k (acc : Mem V) => acc.set k (h (acc k) k)) acc (1 + n) =
        acc (1 + n) := by
      clear ih
      have : ∀ m ≤ n, forStride 1 1 m (fun k (acc : Mem V) => acc.set k (h (acc k) k)) acc (1 + n) =
          acc (1 + n) := by
        intro m
        induction m with
        | zero => intro _; rfl
        | succ m ih =>
          intro hm
          rw [forStride_succ, Nat.mul_one, Mem.set_apply, if_neg (by omega), ih (by omega)]
      exact this n (le_refl n)
    by_cases hp : p = 1 + n
    · subst hp
      rw [if_pos rfl, if_pos (by omega), key]
    · rw [if_neg hp, ih]
      have : (1 ≤ p ∧ p < 1 + (n + 1)) ↔ (1 ≤ p ∧ p < 1 + n) := by omega
      simp only [this]

theorem lsePair_apply (g : ℝ → XR) (dG : Nat) (a b : Mem XR) :
    (@lsePair XR (xrNum g) dG a b 0 = if XR.gt (a 0) (b 0) then a 0 else b 0) ∧
    ∀ k < dG, @lsePair XR (xrNum g) dG a b (1 + k) =
      if XR.gt (a 0) (b 0) then
        XR.add (a (1 + k)) (XR.mul (b (1 + k)) (XR.exp g (XR.sub (b 0) (a 0))))
      else
        XR.add (b (1 + k)) (XR.mul (XR.exp g (XR.sub (a 0) (b 0))) (a (1 + k))) := by
  unfold lsePair
  constructor
  · split
    · next h =>
      have h' : XR.gt (a 0) (b 0) = true := h
      rw [if_pos h']
      simp only
      refine (forStride_set dG (fun v k => XR.add v (XR.mul (b k) (XR.exp g (XR.sub (b 0) (a 0))))) a _).trans ?_
      rw [if_neg (by omega)]
    · next h =>
      have h' : ¬ XR.gt (a 0) (b 0) = true := h
      rw [if_neg h']
      simp
  · intro k hk
    split
    · next h =>
      have h' : XR.gt (a 0) (b 0) = true := h
      rw [if_pos h']
      simp only
      refine (forStride_set dG (fun v k => XR.add v (XR.mul (b k) (XR.exp g (XR.sub (b 0) (a 0))))) a _).trans ?_
      rw [if_pos (by omega)]
    · next h =>
      have h' : ¬ XR.gt (a 0) (b 0) = true := h
      rw [if_neg h']
      simp only
      rw [Mem.set_apply, if_neg (by omega)]
      refine (forStride_set dG (fun v k => XR.add (b k) (XR.mul (XR.exp g (XR.sub (a 0) (b 0))) v)) a _).trans ?_
      rw [if_pos (by omega)]

theorem sum_shift (xs : List (Nat × Mem XR)) (k : Nat) (M M' : ℝ) :
    (xs.map (fun x => Real.exp ((x.2 0).val - M) * (x.2 (1 + k)).val)).sum * Real.exp (M - M') =
    (xs.map (fun x => Real.exp ((x.2 0).val - M') * (x.2 (1 + k)).val)).sum := by
  induction xs with
  | nil => simp
  | cons x xs ih =>
    simp only [List.map_cons, List.sum_cons, add_mul, ih]
    congr 1
    rw [mul_right_comm, ← Real.exp_add]
    congr 2
    ring

theorem lsePair_ok (g : ℝ → XR) {dG : Nat} {xs ys : List (Nat × Mem XR)} {a b : Mem XR}
    (ha : LseOk dG xs a) (hb : LseOk dG ys b) (hne : xs ++ ys ≠ []) :
    LseOk dG (xs ++ ys) (@lsePair XR (xrNum g) dG a b) := by
  obtain ⟨p0, pk⟩ := lsePair_apply g dG a b
  right
  refine ⟨hne, ?_⟩
  rcases ha with ⟨rfl, ha0, hak⟩ | ⟨hxs, M, ha0, hle, ⟨x0, hx0, hxe⟩, hak⟩
  · rcases hb with ⟨rfl, hb0, hbk⟩ | ⟨hys, M', hb0, hle', ⟨y0, hy0, hye⟩, hbk⟩
    · simp at hne
    · -- empty, then non-empty
      refine ⟨M', ?_, ?_, ?_, ?_⟩
      · rw [p0, ha0, hb0]; rfl
      · simpa using hle'
      · exact ⟨y0, by simpa using hy0, hye⟩
      · intro k hk
        rw [pk k hk, ha0, hb0, hak k hk, hbk k hk]
        simp [XR.gt, XR.sub, XR.neg, XR.add, XR.exp, XR.mul]
  · rcases hb with ⟨rfl, hb0, hbk⟩ | ⟨hys, M', hb0, hle', ⟨y0, hy0, hye⟩, hbk⟩
    · refine ⟨M, ?_, ?_, ?_, ?_⟩
      · rw [p0, ha0, hb0]; rfl
      · simpa using hle
      · exact ⟨x0, by simpa using hx0, hxe⟩
      · intro k hk
        rw [pk k hk, ha0, hb0, hak k hk, hbk k hk]
        simp [XR.gt, XR.sub, XR.neg, XR.add, XR.exp, XR.mul]
    · by_cases hlt : M' < M
      · refine ⟨M, ?_, ?_, ⟨x0, by simp [hx0], hxe⟩, ?_⟩
        · rw [p0, ha0, hb0]; simp [XR.gt, hlt]
        · intro x hx
          rcases List.mem_append.mp hx with hx | hx
          · exact hle x hx
          · exact (hle' x hx).trans hlt.le
        · intro k hk
          rw [pk k hk, ha0, hb0, hak k hk, hbk k hk]
          have hgt : XR.gt (fin M) (fin M') = true := by simp [XR.gt, hlt]
          have hpos : ¬ (0 < M' + -M) := by linarith
          rw [if_pos hgt]
          simp only [XR.sub, XR.neg, XR.add, XR.exp, hpos, if_false, XR.mul, List.map_append,
            List.sum_append]
          rw [← sub_eq_add_neg, sum_shift]
      · have hle2 : M ≤ M' := not_lt.mp hlt
        refine ⟨M', ?_, ?_, ⟨y0, by simp [hy0], hye⟩, ?_⟩
        · rw [p0, ha0, hb0]; simp [XR.gt, hlt]
        · intro x hx
          rcases List.mem_append.mp hx with hx | hx
          · exact (hle x hx).trans hle2
          · exact hle' x hx
        · intro k hk
          rw [pk k hk, ha0, hb0, hak k hk, hbk k hk]
          have hgt : ¬ (XR.gt (fin M) (fin M') = true) := by simp [XR.gt, hle2]
          have hpos : ¬ (0 < M + -M') := by linarith
          rw [if_neg hgt]
          simp only [XR.sub, XR.neg, XR.add, XR.exp, hpos, if_false, XR.mul, List.map_append,
            List.sum_append]
          rw [← sub_eq_add_neg, mul_comm (Real.exp (M - M')), sum_shift, add_comm]

theorem lseOk_single {dG : Nat} (x : Mem XR) (j : Nat) (h : FinItem dG x) :
    LseOk dG [(j, x)] x := by
  right
  refine ⟨by simp, (x 0).val, h 0 (by omega), by simp, ⟨(j, x), by simp, rfl⟩, ?_⟩
  intro k hk
  rw [h (1 + k) (by omega)]
  simp [XR.val]

theorem lseRed_lawful (g : ℝ → XR) (dG : Nat) :
    Lawful False (@lseRed XR (xrNum g) dG) (LseAcc dG) where
  init junk _ := by
    left
    refine ⟨rfl, ?_, ?_⟩
    · simp only [lseRed, onSlice_apply, Mem.set_apply]
      rw [if_neg (by omega)]
      exact if_pos trivial
    · intro k hk
      simp only [lseRed, onSlice_apply, vectFill_apply]
      rw [if_pos (by omega), if_pos (by omega)]
      rfl
  short xs acc x j h hfin := by
    apply lsePair_ok g (h (fun y hy => hfin y (by simp [hy])))
      (lseOk_single x j (hfin (j, x) (by simp))) (by simp)
  pair := by
    intro p hp xs ys a b hne ha hb hfin
    cases hp
    refine lsePair_ok g (ha (fun y hy => hfin y (by simp [hy])))
      (hb (fun y hy => hfin y (by simp [hy]))) (hne.resolve_left id)

theorem lseRed_finLocal (g : ℝ → XR) (dG : Nat) : FinLocal (@lseRed XR (xrNum g) dG) := by
  intro acc out out' p
  simp only [lseRed, vectCopy_apply]
  exact ⟨fun h => by simp [h], fun h => by simp [Nat.not_lt.mpr h]⟩

end Verif
