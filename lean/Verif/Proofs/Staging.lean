import Verif.Model.Staging
import Mathlib.Algebra.BigOperators.Group.List.Basic
import Mathlib.Data.Int.Basic
import Mathlib.Tactic.Ring
import Mathlib.Tactic.Linarith

/-!
# Transfers between the host and the GPU: sizes, addresses and contents
-/

namespace Verif.Staging

variable {α : Type}

theorem foldl_bmod (shape : List ℕ) (acc : ℤ) :
    Int.bmod (shape.foldl (fun acc (d : ℕ) => Int.bmod (acc * d) (2 ^ 32)) acc) (2 ^ 32) =
      Int.bmod (acc * shape.prod) (2 ^ 32) := by
  induction shape generalizing acc with
  | nil => simp
  | cons d l ih =>
    rw [List.foldl_cons, ih, List.prod_cons, Int.bmod_mul_bmod]
    congr 1
    push_cast
    ring

theorem foldl_cons_bmod (d : ℕ) (l : List ℕ) (acc : ℤ) :
    (d :: l).foldl (fun acc (d : ℕ) => Int.bmod (acc * d) (2 ^ 32)) acc =
      Int.bmod ((d :: l).foldl (fun acc (d : ℕ) => Int.bmod (acc * d) (2 ^ 32)) acc) (2 ^ 32) := by
  induction l generalizing acc d with
  | nil => simp
  | cons e l ih =>
    rw [List.foldl_cons]
    exact ih e _

/-- The product in 32 bits. -/
theorem intProduct_eq (shape : List ℕ) : intProduct shape = Int.bmod shape.prod (2 ^ 32) := by
  cases shape with
  | nil => decide
  | cons d l =>
    rw [intProduct, foldl_cons_bmod, foldl_bmod, one_mul]

theorem intProduct_of_lt {shape : List ℕ} (h : shape.prod < 2 ^ 31) : intProduct shape = shape.prod := by
  rw [intProduct_eq]
  rw [Int.bmod_eq_of_le] <;> omega

theorem byteCount_of_lt {sz n : ℕ} (h : sz * n < 2 ^ 64) : byteCount sz n = sz * n := by
  unfold byteCount
  have : ((sz : ℤ) * n) = ((sz * n : ℕ) : ℤ) := by push_cast; rfl
  rw [this]
  omega

theorem memcpy_in {dst : ℤ} {src : Mem α} {n : ℕ} {buf : ℤ → α} {b : ℕ} (hb : b < n) :
    memcpy dst src n buf (dst + b) = src b := by
  have h : dst ≤ dst + (b : ℤ) ∧ dst + (b : ℤ) < dst + n := by omega
  have h2 : (dst + (b : ℤ) - dst).toNat = b := by omega
  simp only [memcpy, if_pos h, h2]

theorem memcpy_out {dst : ℤ} {src : Mem α} {n : ℕ} {buf : ℤ → α} {i : ℤ} (hi : i < dst ∨ dst + n ≤ i) :
    memcpy dst src n buf i = buf i := by
  have h : ¬ (dst ≤ i ∧ i < dst + (n : ℤ)) := by omega
  simp only [memcpy, if_neg h]

/-- The arguments are stored one after the other. -/
theorem loadLoop_spec {sz : ℕ} (hsz : sz ≤ 8) (args : List (Mem α × List ℕ))
    (hargs : ∀ a ∈ args, a.2.prod < 2 ^ 31) (dataloc : ℤ) (buf : ℤ → α) :
    (loadLoop sz dataloc args buf).1.length = args.length ∧
    (∀ i, i < dataloc → (loadLoop sz dataloc args buf).2 i = buf i) ∧
    (∀ k (hk : k < args.length), (loadLoop sz dataloc args buf).1[k]? =
      some (dataloc + ((args.take k).map (fun a => sz * a.2.prod)).sum)) ∧
    ∀ k (hk : k < args.length), ∀ b < sz * args[k].2.prod, (loadLoop sz dataloc args buf).2
      (dataloc + ((args.take k).map (fun a => sz * a.2.prod)).sum + b) = args[k].1 b := by
  induction args generalizing dataloc buf with
  | nil => simp [loadLoop]
  | cons a rest ih =>
    obtain ⟨arg, shape⟩ := a
    have hs : shape.prod < 2 ^ 31 := hargs _ List.mem_cons_self
    have hc : byteCount sz (intProduct shape) = sz * shape.prod := by
      rw [intProduct_of_lt hs]
      refine byteCount_of_lt (lt_of_le_of_lt (Nat.mul_le_mul hsz hs.le) (by norm_num))
    have hz : (sz : ℤ) * intProduct shape = ((sz * shape.prod : ℕ) : ℤ) := by
      rw [intProduct_of_lt hs]; push_cast; rfl
    obtain ⟨h1, h2, h3, h4⟩ := ih (fun a ha => hargs a (List.mem_cons_of_mem _ ha))
      (dataloc + sz * intProduct shape) (memcpy dataloc arg (byteCount sz (intProduct shape)) buf)
    simp only [loadLoop]
    refine ⟨by simp [h1], fun i hi => ?_, fun k hk => ?_, fun k hk b hb => ?_⟩
    · rw [h2 i (by omega), memcpy_out (.inl hi)]
    · cases k with
      | zero => simp
      | succ k =>
        rw [List.getElem?_cons_succ, h3 k (by simpa using hk), hz]
        simp only [List.take_succ_cons, List.map_cons, List.sum_cons]
        push_cast
        congr 1
        ring
    · cases k with
      | zero =>
        simp only [List.take_zero, List.map_nil, List.sum_nil, List.getElem_cons_zero] at hb ⊢
        rw [h2 _ (by rw [hz]; omega), hc]
        simpa using memcpy_in hb
      | succ k =>
        simp only [List.getElem_cons_succ] at hb ⊢
        have := h4 k (by simpa using hk) b hb
        rw [hz] at this ⊢
        rw [← this]
        congr 1
        simp only [List.take_succ_cons, List.map_cons, List.sum_cons]
        push_cast
        ring_nf

theorem totalSize_eq (args : List (Mem α × List ℕ)) (hargs : ∀ a ∈ args, a.2.prod < 2 ^ 31) (n : ℕ) :
    totalSize n args = ((n + (args.map (fun a => a.2.prod)).sum : ℕ) : ℤ) := by
  unfold totalSize
  induction args generalizing n with
  | nil => simp
  | cons a rest ih =>
    rw [List.foldl_cons, intProduct_of_lt (hargs a List.mem_cons_self)]
    have := ih (fun a ha => hargs a (List.mem_cons_of_mem _ ha)) (n + a.2.prod)
    rw [show ((n : ℤ) + (a.2.prod : ℤ)) = ((n + a.2.prod : ℕ) : ℤ) by push_cast; rfl, this]
    simp only [List.map_cons, List.sum_cons]
    congr 1
    ring

theorem le_of_prefix {l : List ℕ} {k j : ℕ} (h : k < j) (hk : k < l.length) :
    (l.take k).sum + l[k] ≤ (l.take j).sum := by
  obtain ⟨d, rfl⟩ : ∃ d, j = (k + 1) + d := ⟨j - (k + 1), by omega⟩
  have h1 : (l.take (k + 1)).sum = (l.take k).sum + l[k] := by
    rw [List.take_succ, List.sum_append, List.getElem?_eq_getElem hk]
    simp
  have h2 : (l.take (k + 1 + d)).sum = (l.take (k + 1)).sum + ((l.drop (k + 1)).take d).sum := by
    rw [List.take_add, List.sum_append]
  rw [h2, h1]
  exact Nat.le_add_right _ _

theorem sum_map_mul (sz : ℕ) (args : List (Mem α × List ℕ)) :
    (args.map (fun a => sz * a.2.prod)).sum = sz * (args.map (fun a => a.2.prod)).sum := by
  induction args with
  | nil => rfl
  | cons a l ih => simp only [List.map_cons, List.sum_cons, ih, Nat.mul_add]

end Verif.Staging
