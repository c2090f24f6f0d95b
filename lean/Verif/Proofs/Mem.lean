import Mathlib.Tactic.SplitIfs
import Verif.Model.Schedule

namespace Verif

variable {V W σ : Type}

@[simp] theorem forRange_zero (b : Nat → σ → σ) (s : σ) : forRange 0 b s = s := rfl

theorem forRange_succ (n : Nat) (b : Nat → σ → σ) (s : σ) :
    forRange (n + 1) b s = b n (forRange n b s) := by
  simp [forRange, List.range_succ]

@[simp] theorem forStride_zero (a i : Nat) (b : Nat → σ → σ) (s : σ) : forStride a i 0 b s = s := rfl

theorem forStride_succ (a i n : Nat) (b : Nat → σ → σ) (s : σ) :
    forStride a i (n + 1) b s = b (a + n * i) (forStride a i n b s) := by
  simp [forStride, List.range_succ]

theorem Mem.set_apply (m : Mem V) (k : Nat) (v : V) (p : Nat) :
    m.set k v p = if p = k then v else m p := rfl

@[simp] theorem Mem.set_same (m : Mem V) (k : Nat) (v : V) : m.set k v k = v := by
  simp [Mem.set]

theorem Mem.set_ne (m : Mem V) {k p : Nat} (v : V) (h : p ≠ k) : m.set k v p = m p := by
  simp [Mem.set, h]

@[simp] theorem Mem.shift_apply (m : Mem V) (o k : Nat) : m.shift o k = m (o + k) := rfl

theorem vectApply_apply (d : Nat) (f : V → W → V) (out : Mem V) (arg : Mem W) (p : Nat) :
    vectApply d f out arg p = if p < d then f (out p) (arg p) else out p := by
  induction d with
  | zero => simp [vectApply]
  | succ d ih =>
    unfold vectApply at ih ⊢
    rw [forRange_succ, Mem.set_apply]
    by_cases hp : p = d
    · subst hp
      have : forRange p (fun k out => out.set k (f (out k) (arg k))) out p = out p := by
        simpa using ih
      simp [this]
    · rw [if_neg hp, ih]
      have : (p < d + 1) ↔ p < d := by omega
      simp [this]

theorem vectCopy_apply (d : Nat) (out arg : Mem V) (p : Nat) :
    vectCopy d out arg p = if p < d then arg p else out p := by
  induction d with
  | zero => simp [vectCopy]
  | succ d ih =>
    unfold vectCopy at ih ⊢
    rw [forRange_succ, Mem.set_apply]
    by_cases hp : p = d
    · simp [hp]
    · rw [if_neg hp, ih]
      have : (p < d + 1) ↔ p < d := by omega
      simp [this]

theorem vectFill_apply (d : Nat) (out : Mem V) (v : V) (p : Nat) :
    vectFill d out v p = if p < d then v else out p := by
  induction d with
  | zero => simp [vectFill]
  | succ d ih =>
    unfold vectFill at ih ⊢
    rw [forRange_succ, Mem.set_apply]
    by_cases hp : p = d
    · simp [hp]
    · rw [if_neg hp, ih]
      have : (p < d + 1) ↔ p < d := by omega
      simp [this]

theorem onSlice_apply (off : Nat) (f : Mem V → Mem V) (m : Mem V) (p : Nat) :
    onSlice off f m p = if off ≤ p then f (fun k => m (off + k)) (p - off) else m p := rfl

/-- Induction principle for `forRange`: an invariant indexed by the iteration count. -/
theorem forRange_inv {P : Nat → σ → Prop} (n : Nat) (b : Nat → σ → σ) (s : σ) (h0 : P 0 s)
    (hstep : ∀ k s, k < n → P k s → P (k + 1) (b k s)) : P n (forRange n b s) := by
  have : ∀ m, m ≤ n → P m (forRange m b s) := by
    intro m
    induction m with
    | zero => intro _; simpa using h0
    | succ m ih => intro hm; rw [forRange_succ]; exact hstep m _ (by omega) (ih (by omega))
  exact this n (le_refl n)

theorem forStride_inv {P : Nat → σ → Prop} (a i n : Nat) (b : Nat → σ → σ) (s : σ) (h0 : P 0 s)
    (hstep : ∀ t s, t < n → P t s → P (t + 1) (b (a + t * i) s)) : P n (forStride a i n b s) := by
  have : ∀ m, m ≤ n → P m (forStride a i m b s) := by
    intro m
    induction m with
    | zero => intro _; simpa using h0
    | succ m ih => intro hm; rw [forStride_succ]; exact hstep m _ (by omega) (ih (by omega))
  exact this n (le_refl n)

theorem forRange_congr {n : Nat} {b b' : Nat → σ → σ} {s : σ}
    (h : ∀ k s, k < n → b k s = b' k s) : forRange n b s = forRange n b' s := by
  induction n with
  | zero => rfl
  | succ n ih =>
    rw [forRange_succ, forRange_succ, ih (fun k s hk => h k s (by omega)), h n _ (by omega)]

end Verif
