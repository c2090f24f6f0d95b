import Verif.Model.Lazy
import Mathlib.Data.List.Basic

/-!
# Lazy tensors: C27

Shapes follow NumPy's broadcasting rule.
-/

namespace Verif.Lazy
open Alias (Str)
open Spec (LExpr DimCheck broadcast broadcastRev)

/-- The padding, on reversed lists. -/
theorem broadcastRev_eq (s t : List Nat) (hs : 0 ∉ s) (ht : 0 ∉ t) :
    broadcastRev s t =
      if (List.zip (s ++ List.replicate (t.length - s.length) 1) (t ++ List.replicate (s.length - t.length) 1)).any
          (fun (x, y) => x ≠ 1 ∧ y ≠ 1 ∧ x ≠ y) then none
      else some (List.zipWith max (s ++ List.replicate (t.length - s.length) 1)
        (t ++ List.replicate (s.length - t.length) 1)) := by
  have hone : ∀ t : List Nat, 0 ∉ t → (List.zip (List.replicate t.length 1) t).any
      (fun (x, y) => x ≠ 1 ∧ y ≠ 1 ∧ x ≠ y) = false ∧ List.zipWith max (List.replicate t.length 1) t = t := by
    intro t
    induction t with
    | nil => simp
    | cons a t ih =>
      intro h
      simp only [List.mem_cons, not_or] at h
      obtain ⟨h1, h2⟩ := ih h.2
      refine ⟨?_, ?_⟩
      · simp only [List.length_cons, List.replicate_succ, List.zip_cons_cons, List.any_cons, h1]
        simp
      · simp only [List.length_cons, List.replicate_succ, List.zipWith_cons_cons, h2, List.cons.injEq, and_true]
        omega
  have hone' : ∀ t : List Nat, 0 ∉ t → (List.zip t (List.replicate t.length 1)).any
      (fun (x, y) => x ≠ 1 ∧ y ≠ 1 ∧ x ≠ y) = false ∧ List.zipWith max t (List.replicate t.length 1) = t := by
    intro t
    induction t with
    | nil => simp
    | cons a t ih =>
      intro h
      simp only [List.mem_cons, not_or] at h
      obtain ⟨h1, h2⟩ := ih h.2
      refine ⟨?_, ?_⟩
      · simp only [List.length_cons, List.replicate_succ, List.zip_cons_cons, List.any_cons, h1]
        simp
      · simp only [List.length_cons, List.replicate_succ, List.zipWith_cons_cons, h2, List.cons.injEq, and_true]
        omega
  induction s generalizing t with
  | nil =>
    simp only [List.length_nil, Nat.sub_zero, List.nil_append, Nat.zero_sub, List.replicate_zero, List.append_nil]
    rw [(hone t ht).1, (hone t ht).2]
    simp [broadcastRev]
  | cons a s ih =>
    cases t with
    | nil =>
      simp only [List.length_nil, Nat.sub_zero, List.nil_append, Nat.zero_sub, List.replicate_zero, List.append_nil]
      rw [(hone' _ hs).1, (hone' _ hs).2]
      simp [broadcastRev]
    | cons b t =>
      simp only [List.mem_cons, not_or] at hs ht
      rw [broadcastRev, ih t hs.2 ht.2]
      simp only [List.length_cons, Nat.add_sub_add_right, List.cons_append, List.zip_cons_cons, List.any_cons,
        List.zipWith_cons_cons]
      by_cases h1 : a = b ∨ b = 1
      · rw [if_pos h1]
        have : decide (a ≠ 1 ∧ b ≠ 1 ∧ a ≠ b) = false := by
          rw [decide_eq_false_iff_not]
          omega
        rw [this, Bool.false_or, show max a b = a by omega]
        split_ifs <;> rfl
      · rw [if_neg h1]
        by_cases h2 : a = 1
        · rw [if_pos h2]
          have : decide (a ≠ 1 ∧ b ≠ 1 ∧ a ≠ b) = false := by
            rw [decide_eq_false_iff_not]
            omega
          rw [this, Bool.false_or, show max a b = b by omega]
          split_ifs <;> rfl
        · rw [if_neg h2]
          have : decide (a ≠ 1 ∧ b ≠ 1 ∧ a ≠ b) = true := by
            rw [decide_eq_true_eq]
            omega
          rw [this, Bool.true_or, if_pos rfl]

theorem checkBroadcasting_eq (a b : Option (List Nat)) (ha : 0 ∉ a.getD []) (hb : 0 ∉ b.getD []) :
    (checkBroadcasting a b).map (·.getD []) = broadcast (a.getD []) (b.getD []) := by
  cases a with
  | none => simp [checkBroadcasting, broadcast, broadcastRev]
  | some a =>
    cases b with
    | none => cases h : a.reverse <;> simp [checkBroadcasting, broadcast, broadcastRev, h] <;> simp_all
    | some b =>
      simp only [Option.getD_some] at ha hb ⊢
      unfold broadcast
      rw [broadcastRev_eq _ _ (by simpa using ha) (by simpa using hb)]
      unfold checkBroadcasting
      simp only [List.length_reverse]
      have h1 : a.reverse ++ List.replicate (b.length - a.length) 1 =
          (List.replicate (b.length - a.length) 1 ++ a).reverse := by simp
      have h2 : b.reverse ++ List.replicate (a.length - b.length) 1 =
          (List.replicate (a.length - b.length) 1 ++ b).reverse := by simp
      have hlen : (List.replicate (b.length - a.length) 1 ++ a).length =
          (List.replicate (a.length - b.length) 1 ++ b).length := by simp; omega
      rw [h1, h2, List.zip, ← List.reverse_zipWith hlen, List.any_reverse, ← List.reverse_zipWith hlen]
      split_ifs <;> simp

/-- The shape without the last dimension. -/
def lead (L : LazyT) : List Nat := L.batchdims.getD [] ++ [L.ni.getD 1, L.nj.getD 1]

theorem promote_eq (x y : Option Nat) (hx : x ≠ some 1) (hy : y ≠ some 1) :
    (promote x y).map (·.getD 1) =
      if x.getD 1 = y.getD 1 ∨ y.getD 1 = 1 then some (x.getD 1) else if x.getD 1 = 1 then some (y.getD 1) else none := by
  cases x with
  | none =>
    cases y with
    | none => simp [promote]
    | some b =>
      simp only [ne_eq, Option.some.injEq] at hy
      by_cases h : b = 1
      · exact absurd h hy
      · simp [promote, h, Ne.symm h]
  | some a =>
    simp only [ne_eq, Option.some.injEq] at hx
    cases y with
    | none => simp [promote]
    | some b =>
      simp only [ne_eq, Option.some.injEq] at hy
      by_cases h : a = b <;> simp [promote, h, hx, hy]

theorem join_lead (x y : LazyT) (hxi : x.ni ≠ some 1) (hxj : x.nj ≠ some 1) (hyi : y.ni ≠ some 1)
    (hyj : y.nj ≠ some 1) (hx : 0 ∉ x.batchdims.getD []) (hy : 0 ∉ y.batchdims.getD []) :
    (join x y).map lead = broadcast (lead x) (lead y) := by
  have hi := promote_eq x.ni y.ni hxi hyi
  have hj := promote_eq x.nj y.nj hxj hyj
  have hb := checkBroadcasting_eq x.batchdims y.batchdims hx hy
  have hl : broadcast (lead x) (lead y) =
      ((promote x.nj y.nj).map (·.getD 1)).bind (fun j => ((promote x.ni y.ni).map (·.getD 1)).bind (fun i =>
        (broadcast (x.batchdims.getD []) (y.batchdims.getD [])).map (fun b => b ++ [i, j]))) := by
    unfold broadcast lead
    rw [hi, hj]
    simp only [List.reverse_append, List.reverse_cons, List.reverse_nil, List.nil_append, List.cons_append, broadcastRev]
    split_ifs <;> cases broadcastRev (x.batchdims.getD []).reverse (y.batchdims.getD []).reverse <;> simp
  rw [hl, ← hb]
  unfold join
  cases h1 : promote x.ni y.ni <;> cases h2 : promote x.nj y.nj <;>
    cases h3 : checkBroadcasting x.batchdims y.batchdims <;> simp [lead]

/-! ## C27 -/

/-- **C27**. The sum, difference, product or quotient of two lazy tensors is accepted exactly when NumPy accepts their
shapes, and has the shape given by NumPy. Partial: no operand has a number of rows or columns given by an array with
one row, and there is no empty dimension among the batch dimensions and the last one. -/
theorem C27_partial (op : Str) (isOp : Bool) (opt : Option Str) (rversion : Bool) (x y : LazyT)
    (hxi : x.ni ≠ some 1) (hxj : x.nj ≠ some 1) (hyi : y.ni ≠ some 1) (hyj : y.nj ≠ some 1)
    (hx : 0 ∉ x.batchdims.getD []) (hy : 0 ∉ y.batchdims.getD []) (hdx : x.ndim ≠ 0) (hdy : y.ndim ≠ 0) :
    (binary op isOp none .sameor1 opt rversion x y).map LazyT.shape = broadcast x.shape y.shape := by
  have hl := join_lead x y hxi hxj hyi hyj hx hy
  have hs : ∀ L : LazyT, L.shape = lead L ++ [L.ndim] := by
    intro L
    simp [LazyT.shape, lead]
  have hb : broadcast x.shape y.shape =
      if checkDims .sameor1 x.ndim y.ndim then (broadcast (lead x) (lead y)).map (· ++ [max x.ndim y.ndim]) else none := by
    rw [hs, hs]
    unfold broadcast
    simp only [List.reverse_append, List.reverse_cons, List.reverse_nil, List.nil_append, List.cons_append, broadcastRev,
      checkDims, decide_eq_true_eq]
    by_cases h1 : x.ndim = y.ndim ∨ y.ndim = 1
    · rw [if_pos h1, if_pos (by omega), show max x.ndim y.ndim = x.ndim by omega]
      simp [Option.map_map, Function.comp_def]
    · rw [if_neg h1]
      by_cases h2 : x.ndim = 1
      · rw [if_pos h2, if_pos (by omega), show max x.ndim y.ndim = y.ndim by omega]
        simp [Option.map_map, Function.comp_def]
      · rw [if_neg h2, if_neg (by omega)]
        rfl
  rw [hb, ← hl]
  unfold binary
  by_cases hc : checkDims .sameor1 x.ndim y.ndim = true
  · rw [if_pos hc]
    simp only [hc, not_true_eq_false, if_false]
    rw [Option.map_map, Option.map_map]
    congr 1
    funext L
    simp [LazyT.shape, lead, dimOr]
  · rw [if_neg hc]
    simp [hc]

/-- The same for an operation with another rule on the last dimension: it is accepted exactly when this rule holds and
NumPy accepts the other dimensions, which it broadcasts. -/
theorem C27_other_partial (op : Str) (isOp : Bool) (dimres : Option Nat) (check : DimCheck) (opt : Option Str)
    (rversion : Bool) (x y : LazyT)
    (hxi : x.ni ≠ some 1) (hxj : x.nj ≠ some 1) (hyi : y.ni ≠ some 1) (hyj : y.nj ≠ some 1)
    (hx : 0 ∉ x.batchdims.getD []) (hy : 0 ∉ y.batchdims.getD []) :
    (binary op isOp dimres check opt rversion x y).map LazyT.shape =
      if checkDims check x.ndim y.ndim then
        (broadcast (x.batchdims.getD [] ++ [x.ni.getD 1, x.nj.getD 1])
          (y.batchdims.getD [] ++ [y.ni.getD 1, y.nj.getD 1])).map (· ++ [dimOr dimres (max x.ndim y.ndim)])
      else none := by
  have hl := join_lead x y hxi hxj hyi hyj hx hy
  unfold lead at hl
  rw [← hl]
  unfold binary
  by_cases hc : checkDims check x.ndim y.ndim = true
  · rw [if_pos hc]
    simp only [hc, not_true_eq_false, if_false]
    rw [Option.map_map, Option.map_map]
    congr 1
    funext L
    simp [LazyT.shape]
  · rw [if_neg hc]
    simp [hc]

/-- A case: batch dimensions `(4,1)` and `(3)`, a variable `i` of dimension 1 and a variable `j` of dimension 2. -/
example : ∃ x y, mkArray 100 0 [4, 1, 5, 1, 1] none = some x ∧ mkArray 200 1 [3, 1, 7, 2] none = some y ∧
    (x.ni ≠ some 1 ∧ x.nj ≠ some 1 ∧ y.ni ≠ some 1 ∧ y.nj ≠ some 1) ∧
    (0 ∉ x.batchdims.getD [] ∧ 0 ∉ y.batchdims.getD [] ∧ x.ndim ≠ 0 ∧ y.ndim ≠ 0) ∧
    (binary ['-'] true none .sameor1 none false x y).map LazyT.shape = some [4, 3, 5, 7, 2] := by
  refine ⟨_, _, rfl, rfl, ?_, ?_, ?_⟩ <;> decide +kernel

/-! ## What fails -/

/-- **Not C27**: NumPy stretches an array with one row, `LazyTensor(x, axis=0)` does not: `x` of shape `(1,3)` minus `y`
of shape `(5,3)`, both variables `i`, is rejected. -/
theorem not_C27_one_row : ∃ x y, mkArray 100 0 [1, 3] (some 0) = some x ∧ mkArray 200 1 [5, 3] (some 0) = some y ∧
    broadcast x.shape y.shape = some [5, 1, 3] ∧ ∀ op opt, binary op true none .sameor1 opt false x y = none := by
  refine ⟨_, _, rfl, rfl, by decide +kernel, fun op opt => rfl⟩

/-- **Not C27**: an empty batch dimension against a batch dimension 1 gives 1 instead of 0. -/
theorem not_C27_empty : ∃ x y, mkArray 100 0 [0, 5, 1, 3] none = some x ∧ mkArray 200 1 [1, 5, 1, 3] none = some y ∧
    broadcast x.shape y.shape = some [0, 5, 1, 3] ∧
    ∀ op opt, (binary op true none .sameor1 opt false x y).map LazyT.shape = some [1, 5, 1, 3] := by
  refine ⟨_, _, rfl, rfl, by decide +kernel, fun op opt => rfl⟩

end Verif.Lazy
