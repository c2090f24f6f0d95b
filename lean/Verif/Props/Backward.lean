import Verif.Proofs.Backward
import Verif.Props.RedDiff

/-!
# C40, C48: the backward pass with batch dimensions and `vmap`
-/

namespace Verif

open Finset Spec

/-- **C40**: whatever the output `g` of the gradient reduction, which has `rows` rows for each batch, the gradient
returned for an argument has the shape of this argument and its scalar product with any direction `Δ` is that of `g`
with `Δ` broadcast to all the batches (and, for a parameter, to all the rows). -/
theorem C40_adjoint {c : Int} {xb batch : List Nat} {rows d : Nat} (h : Broadcasts xb batch) {g : Arr ℝ}
    (hg : g.shape = batch ++ [rows, d]) :
    ∃ a, collapse c (xb ++ tailShape c rows d) g = some a ∧ a.shape = xb ++ tailShape c rows d ∧
      ∀ Δ : Arr ℝ, Δ.shape = xb ++ tailShape c rows d →
        (sumIdx a.shape fun idx => a.get idx * Δ.get idx) =
          sumIdx batch fun b => ∑ r ∈ range rows, ∑ k ∈ range d,
            g.get (b ++ [r, k]) * Δ.at' (b ++ if c = 2 then [k] else [r, k]) := by
  have hlen := h.length_eq
  by_cases hc : c = 2
  · subst hc
    have hs : (sumM2 g).shape = batch ++ [d] := by
      simp only [sumM2, hg, List.length_append, List.length_cons, List.length_nil]
      rw [show batch.length + (0 + 1 + 1) - 2 = batch.length by omega,
        show batch.length + (0 + 1 + 1) - 1 = batch.length + 1 by omega, List.take_left', List.drop_append]
      · simp
      · rfl
    have hget : ∀ b k, b.length = batch.length →
        (sumM2 g).get (b ++ [k]) = ∑ q ∈ range rows, g.get (b ++ [q, k]) := by
      intro b k hb
      simp only [sumM2, hg, List.length_append, List.length_cons, List.length_nil]
      rw [show batch.length + (0 + 1 + 1) - 2 = batch.length by omega, ← hb, List.take_left', List.drop_left']
      · rw [hb]
        simp
      · rfl
      · rfl
    have hfl : collapseFlags (xb ++ [d]).dropLast (batch ++ [d]).dropLast = collapseFlags xb batch := by simp
    have hsh := sumKeepShape_eq h [d]
    refine ⟨⟨xb ++ [d], fun idx => sumKeepGet (collapseFlags xb batch) (batch ++ [d]) (sumM2 g).get
      (unravel (xb ++ [d]) (ravel (xb ++ [d]) idx))⟩, ?_, rfl, fun Δ hΔ => ?_⟩
    · simp only [collapse, tailShape, if_true, hs, hfl, reshape, hsh]
    · simp only [tailShape, if_true] at hΔ ⊢
      rw [sumIdx_congr (ψ := fun idx => sumKeepGet (collapseFlags xb batch) (batch ++ [d]) (sumM2 g).get idx *
        Δ.get idx) fun idx hi => by rw [unravel_ravel hi], sumKeep_adj h]
      refine sumIdx_congr fun b hb => ?_
      simp only [sumIdx]
      rw [sum_comm]
      refine sum_congr rfl fun k hk => ?_
      rw [hget b k hb.length_eq.symm, sum_mul]
      refine sum_congr rfl fun r _ => ?_
      rw [at'_append hΔ h hb (.cons (mem_range.mp hk) .nil)]
  · have hfl : collapseFlags (xb ++ [rows, d]).dropLast.dropLast (batch ++ [rows, d]).dropLast.dropLast =
        collapseFlags xb batch := by
      rw [show xb ++ [rows, d] = xb ++ [rows] ++ [d] by simp, show batch ++ [rows, d] = batch ++ [rows] ++ [d] by simp]
      simp only [List.dropLast_concat]
    have hsh := sumKeepShape_eq h [rows, d]
    refine ⟨⟨xb ++ [rows, d], fun idx => sumKeepGet (collapseFlags xb batch) (batch ++ [rows, d]) g.get
      (unravel (xb ++ [rows, d]) (ravel (xb ++ [rows, d]) idx))⟩, ?_, ?_, fun Δ hΔ => ?_⟩
    · simp only [collapse, tailShape, if_neg hc, hg, hfl, reshape, hsh, if_true]
    · simp only [tailShape, if_neg hc]
    · simp only [tailShape, if_neg hc] at hΔ ⊢
      rw [sumIdx_congr (ψ := fun idx => sumKeepGet (collapseFlags xb batch) (batch ++ [rows, d]) g.get idx *
        Δ.get idx) fun idx hi => by rw [unravel_ravel hi], sumKeep_adj h]
      refine sumIdx_congr fun b hb => ?_
      simp only [sumIdx]
      refine sum_congr rfl fun r hr => sum_congr rfl fun k hk => ?_
      rw [at'_append hΔ h hb (.cons (mem_range.mp hr) (.cons (mem_range.mp hk) .nil))]

/-- **C40** with C44, for sums: the loss is `Σ_b Σ_a ⟨G_ba, Σ_s f(b, a, s)⟩`, where the argument `X` of the variable `v`
may be broadcast along the batch dimensions.  When `X` moves in a direction `Δ`, the derivative of the loss is the
scalar product of `Δ` with the gradient returned by the backward pass.

Missing: the restrictions of C04 on the formula, and empty batches (`not_C40_empty`). -/
theorem C40_sum_partial {f f0 : Expr} {v : VarId} {tagI m n : Nat} {red : RedExpr} {η : Int}
    (ht : tagI = 0 ∨ tagI = 1) (hv : 0 < v.dim) (hc : v.cat = 0 ∨ v.cat = 1 ∨ v.cat = 2)
    (he : f.WF) (hf : f.FactFree) (hn : f.NoBroadcast) (hu : f.Uses v) (hη : η ≠ v.ind)
    (h : RedGrads (.sum f tagI) v (.var η f.dim tagI) f0 red) {xb batch : List Nat} (hb : Broadcasts xb batch)
    (base : List Nat → Nat × Nat → Env) (X : Arr ℝ)
    (hX : X.shape = xb ++ tailShape v.cat (if v.cat = 1 then n else m) v.dim)
    (hs : ∀ b, Arr.Idx batch b → ∀ i < m, ∀ j < n, f.Smooth (point (base b) v (rowsOf X v b) (i, j)))
    (G : List Nat → Nat → Vec) (hG : ∀ b, Arr.Idx batch b → HoldsRows (base b) η tagI m n 0 f.dim (G b)) :
    ∃ r axis, red = .sum r axis ∧ ∀ g : Arr ℝ, g.shape = batch ++ [if v.cat = 1 then n else m, v.dim] →
      (∀ b, Arr.Idx batch b → ∀ q < (if v.cat = 1 then n else m), ∀ k < v.dim, g.get (b ++ [q, k]) =
        sumRow r axis m n (point (base b) v (rowsOf X v b)) q k) →
      ∃ a, collapse v.cat X.shape g = some a ∧ a.shape = X.shape ∧ ∀ Δ : Arr ℝ, Δ.shape = X.shape →
        HasDerivAt (fun t => sumIdx batch fun b => dotRows (outRows tagI m n) f.dim (G b)
            (sumRow f tagI m n (point (base b) v (rowsOf ⟨X.shape, fun i => X.get i + t * Δ.get i⟩ v b))))
          (sumIdx X.shape fun idx => a.get idx * Δ.get idx) 0 := by
  have key : ∀ b, Arr.Idx batch b → ∀ δ, ∃ r axis, red = .sum r axis ∧ axis = (if v.cat = 1 then 1 else 0) ∧
      HasDerivAt (fun t => dotRows (outRows tagI m n) f.dim (G b)
          (sumRow f tagI m n (point (base b) v (line (rowsOf X v b) δ t))))
        (dotGrad v m n (sumRow r axis m n (point (base b) v (rowsOf X v b))) δ) 0 := fun b hib δ =>
    C44_sum_partial ht hv hc he hf hn hu hη h (base b) (rowsOf X v b) δ (hs b hib) (G b) (hG b hib)
  obtain ⟨N, hN⟩ := h
  simp only [RedExpr.diffT, sumDiffT] at hN
  obtain ⟨r, h1, hN⟩ := bind_ok' hN
  cases hN
  refine ⟨r, v.axis, rfl, fun g hg hgv => ?_⟩
  obtain ⟨a, ha, has, had⟩ := C40_adjoint (c := v.cat) hb hg
  refine ⟨a, by rw [hX]; exact ha, has.trans hX.symm, fun Δ hΔ => ?_⟩
  have e := had Δ (hΔ.trans hX)
  rw [has, ← hX] at e
  rw [e]
  refine sumIdx_deriv fun b hib => ?_
  obtain ⟨r', axis', hr', -, hd⟩ := key b hib (rowsOf Δ v b)
  cases hr'
  have hline : ∀ t, rowsOf ⟨X.shape, fun i => X.get i + t * Δ.get i⟩ v b =
      line (rowsOf X v b) (rowsOf Δ v b) t := fun t => by
    funext q k
    simp only [rowsOf, Arr.at', line, Pi.add_apply, Pi.smul_apply, smul_eq_mul, hΔ]
  simp only [hline]
  refine hd.congr_deriv ?_
  unfold dotGrad
  refine sum_congr rfl fun q hq => ?_
  rw [← Fin.sum_univ_eq_sum_range (fun k => g.get (b ++ [q, k]) *
    Δ.at' (b ++ if v.cat = 2 then [k] else [q, k]))]
  refine sum_congr rfl fun k _ => ?_
  rw [hgv b hib q (mem_range.mp hq) k k.2]
  by_cases h2 : v.cat = 2 <;> simp [rowsOf, h2]

/-- Each argument receives the gradient with respect to its own variable, when the list of aliases declares the
variables in the order of the arguments. -/
theorem C40_order {sigs : List VarId} {shapes : List (List Nat)} {gradOf : VarId → Arr ℝ}
    (h : ∀ (k : Nat) (v : VarId), sigs[k]? = some v → v.ind = k) {k : Nat} {v : VarId} {s : List Nat} (hk : sigs[k]? = some v)
    (hs : shapes[k]? = some s) :
    v.ind = k ∧ (backward sigs shapes gradOf)[k]? = some (collapse v.cat s (gradOf v)) := by
  refine ⟨h k v hk, ?_⟩
  simp [backward, List.getElem?_zipWith, hk, hs]

/-- `C40_adjoint` applies to an argument of shape `[1, 2, 3]` in a call with 4 batches; the gradient is not zero. -/
example : ∃ a, collapse 0 ([1] ++ tailShape 0 2 3) ⟨[4] ++ [2, 3], fun idx => idx.headD 0⟩ = some a ∧
    a.shape = [1, 2, 3] ∧ a.get [0, 1, 2] = 6 := by
  refine ⟨⟨[1, 2, 3], fun idx => sumKeepGet [true] [4, 2, 3] (fun idx => idx.headD 0) (unravel [1, 2, 3]
    (ravel [1, 2, 3] idx))⟩, ?_, rfl, ?_⟩
  · simp [collapse, collapseFlags, sumKeepShape, tailShape, reshape]
  · simp [sumKeepGet, unravel, ravel, sum_range_succ]
    norm_num

example : Broadcasts [1] [4] := .cons ⟨by decide, .inr rfl⟩ .nil

/-- `C40_order` applies. -/
example : ∀ (k : Nat) (v : VarId), ([⟨0, 3, 0⟩, ⟨1, 3, 1⟩] : List VarId)[k]? = some v → v.ind = k := by
  rintro (_ | _ | k) v h <;> simp at h <;> subst h <;> rfl

/-- When the list of aliases gives the positions of the arguments in another order, as in
`["y = Vj(1,1)", "x = Vi(0,1)"]`, which the forward pass supports, the gradients are exchanged: the first gradient
returned, for the argument 0, is not the gradient with respect to the variable 0. -/
theorem not_C40_positions : ∃ (sigs : List VarId) (shapes : List (List Nat)) (gradOf : VarId → Arr ℝ) (v : VarId)
    (a b : Arr ℝ), (sigs.map VarId.ind).Perm [0, 1] ∧ v ∈ sigs ∧ v.ind = 0 ∧ shapes = [[1, 1], [1, 1]] ∧
    (backward sigs shapes gradOf)[0]? = some (some a) ∧ collapse v.cat [1, 1] (gradOf v) = some b ∧
    a.get [0, 0] ≠ b.get [0, 0] := by
  refine ⟨[⟨1, 1, 1⟩, ⟨0, 1, 0⟩], [[1, 1], [1, 1]], fun v => ⟨[1, 1], fun _ => v.ind⟩, ⟨0, 1, 0⟩, ⟨[1, 1], fun _ => 1⟩,
    ⟨[1, 1], fun _ => 0⟩, ?_, by simp, rfl, rfl, ?_, ?_, by simp⟩
  · exact List.Perm.swap ..
  · simp [backward, collapse, collapseFlags, sumKeepShape, sumKeepGet, reshape]
  · simp [collapse, collapseFlags, sumKeepShape, sumKeepGet, reshape]

/-- With an empty batch dimension, broadcast for one argument, the gradient of this argument should be zero; the
backward pass raises an error. -/
theorem not_C40_empty (g : Arr ℝ) (hg : g.shape = [0, 2, 3]) : collapse 0 [1, 2, 3] g = none := by
  simp [collapse, collapseFlags, hg, reshape, sumKeepShape]

/-! ## `vmap` -/

/-- Same shape and same entries. -/
def Arr.Same {V : Type} (a b : Arr V) : Prop := a.shape = b.shape ∧ ∀ idx, Arr.Idx a.shape idx → a.get idx = b.get idx

/-- The slice `l` of an array along the axis `j`. -/
def slice {V : Type} (j l : Nat) (a : Arr V) : Arr V := ⟨a.shape.eraseIdx j, fun idx => a.get (idx.insertIdx j l)⟩

/-- The batch `l` of an array along its first axis, which is broadcast if it is 1. -/
def batchSlice {V : Type} (l : Nat) (a : Arr V) : Arr V :=
  ⟨a.shape.tail, fun idx => a.get ((if a.shape.head? = some 1 then 0 else l) :: idx)⟩

/-- What one iteration of the loop over the mapped axis gives to the call: the slice `l` of an argument which is mapped,
the argument itself otherwise. -/
def loopArg {V : Type} (l : Nat) (ind : Option Nat) (a : Arr V) : Arr V := ind.elim a fun j => slice j l a

/-- One argument: its batches are its slices when the mapped axis is the first or the second one. -/
theorem vmapArg_slice {V : Type} {a : Arr V} {B l : Nat} {ind : Option Nat} (hl : l < B)
    (hj : ∀ j, ind = some j → j ≤ 1 ∧ a.shape[j]? = some B) :
    Arr.Same (batchSlice l (vmapArg ind a)) (loopArg l ind a) := by
  obtain ⟨sh, get⟩ := a
  cases ind with
  | none => exact ⟨rfl, fun idx _ => by simp [batchSlice, vmapArg, loopArg]⟩
  | some j =>
    obtain ⟨h1, h2⟩ := hj j rfl
    have hz : ∀ B', B' = B → (if some B' = some 1 then 0 else l) = l := fun B' e => by
      split
      · rename_i h
        simp at h
        omega
      · rfl
    obtain rfl | rfl : j = 0 ∨ j = 1 := by omega
    · cases sh with
      | nil => simp at h2
      | cons n s =>
        have hn : n = B := by simpa using h2
        subst hn
        refine ⟨by simp [batchSlice, vmapArg, swap0, loopArg, slice], fun idx _ => ?_⟩
        simp only [batchSlice, vmapArg, swap0, loopArg, slice, Option.elim]
        have := hz n rfl
        simp at this ⊢
        by_cases h : n = 1
        · simp [h, this h]
        · simp [h]
    · match sh, h2 with
      | n :: p :: s, h2 =>
        have hp : p = B := by simpa using h2
        subst hp
        refine ⟨by simp [batchSlice, vmapArg, swap0, loopArg, slice], fun idx hi => ?_⟩
        have hlen := hi.length_eq
        cases idx with
        | nil => simp [batchSlice, vmapArg, swap0] at hlen
        | cons k r =>
          have := hz p rfl
          simp only [batchSlice, vmapArg, swap0, loopArg, slice, Option.elim]
          simp at this ⊢
          by_cases h : p = 1
          · simp [h, this h]
          · simp [h]

/-- **C48**: let `F` be a call whose batches can be computed one by one, with broadcasting.  Then `vmap` over the first or
second axis of some arguments is the loop over these axes.

Missing: mapped axes after the second one, for which it fails (`not_C48`); the hypothesis on `F` is not derived
here: `C48_sum_partial` and `C48_sum_batch_partial` are about the kernels that compute sums. -/
theorem C48_partial {V : Type} (F : List (Arr V) → Arr V)
    (hF : ∀ args args', List.Forall₂ Arr.Same args args' → Arr.Same (F args) (F args'))
    (hB : ∀ (args : List (Arr V)) (B l : Nat), l < B →
      (∀ a ∈ args, a.shape.head? = some B ∨ a.shape.head? = some 1) →
      Arr.Same (batchSlice l (F args)) (F (args.map (batchSlice l))))
    {inds : List (Option Nat)} {args : List (Arr V)} {B l : Nat} (hl : l < B)
    (h : ∀ (k : Nat) (j : Nat) (a : Arr V), inds[k]? = some (some j) → args[k]? = some a → j ≤ 1 ∧ a.shape[j]? = some B) :
    Arr.Same (batchSlice l (vmap F inds args)) (F (List.zipWith (loopArg l) inds args)) := by
  have trans : ∀ {a b c : Arr V}, Arr.Same a b → Arr.Same b c → Arr.Same a c := fun h1 h2 =>
    ⟨h1.1.trans h2.1, fun idx hi => (h1.2 idx hi).trans (h2.2 idx (h1.1 ▸ hi))⟩
  refine trans (hB _ B l hl fun a ha => ?_) (hF _ _ ?_)
  · obtain ⟨k, hk⟩ := List.mem_iff_getElem?.mp ha
    rw [List.getElem?_zipWith] at hk
    rcases hi : inds[k]? with _ | ind
    · simp [hi] at hk
    rcases hx : args[k]? with _ | x
    · simp [hi, hx] at hk
    simp only [hi, hx, Option.some.injEq] at hk
    subst hk
    cases ind with
    | none => exact .inr rfl
    | some j =>
      obtain ⟨h1, h2⟩ := h k j x hi hx
      refine .inl ?_
      rcases hs : x.shape with _ | ⟨n, s⟩
      · simp [hs] at h2
      · rw [hs] at h2
        simp only [vmapArg, swap0, hs, h2]
        obtain rfl | rfl : j = 0 ∨ j = 1 := by omega
        · simpa using h2
        · simp
  · clear hB hF
    induction inds generalizing args with
    | nil => simp
    | cons ind inds ih =>
      cases args with
      | nil => simp
      | cons a args =>
        simp only [List.zipWith_cons_cons, List.map_cons]
        exact .cons (vmapArg_slice hl fun j e => h 0 j a (by simp [e]) rfl)
          (ih fun k j a hi ha => h (k + 1) j a (by simpa using hi) (by simpa using ha))

/-- For a mapped axis after the second one the other axes are reordered: with the identity as the call, and an array
of shape `[2, 2, 2]` mapped along its last axis, a slice of the result is the transpose of the slice. -/
theorem not_C48 : ∃ a : Arr ℝ, a.shape = [2, 2, 2] ∧
    ¬ Arr.Same (batchSlice 0 (vmap (fun args => args.headD a) [some 2] [a])) (slice 2 0 a) := by
  refine ⟨⟨[2, 2, 2], fun idx => idx.headD 0⟩, rfl, fun h => ?_⟩
  have := h.2 [1, 0] (by simp [batchSlice, vmap, vmapArg, swap0, Arr.Idx])
  simp [batchSlice, vmap, vmapArg, swap0, slice] at this

/-- `C48_partial` applies: a call which multiplies its two arguments, whose batch dimension is broadcast, mapped over
the second axis of the first argument only. -/
example : ∃ F : List (Arr ℝ) → Arr ℝ,
    (∀ args args', List.Forall₂ Arr.Same args args' → Arr.Same (F args) (F args')) ∧
    (∀ (args : List (Arr ℝ)) (B l : Nat), l < B →
      (∀ a ∈ args, a.shape.head? = some B ∨ a.shape.head? = some 1) →
      Arr.Same (batchSlice l (F args)) (F (args.map (batchSlice l)))) ∧
    ∃ args args' : List (Arr ℝ), ¬ Arr.Same (F args) (F args') := by
  refine ⟨fun args => match args with | a :: _ => ⟨a.shape, fun idx => 2 * a.get idx⟩ | [] => ⟨[], fun _ => 0⟩, ?_, ?_, ?_⟩
  · intro args args' h
    cases h with
    | nil => exact ⟨rfl, fun _ _ => rfl⟩
    | cons h _ => exact ⟨h.1, fun idx hi => by simp only [h.2 idx hi]⟩
  · intro args B l _ _
    cases args with
    | nil => exact ⟨rfl, fun _ _ => rfl⟩
    | cons a _ => exact ⟨rfl, fun _ _ => rfl⟩
  · refine ⟨[⟨[], fun _ => 1⟩], [⟨[], fun _ => 2⟩], fun h => ?_⟩
    have := h.2 [] (by simp [Arr.Idx])
    norm_num at this

end Verif
