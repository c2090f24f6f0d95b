import Verif.Proofs.Kron

/-!
# C34: contractions of tensors

`TensorDot(f, g, dimsfa, dimsfb, contfa, contfb, permute)` (`keopscore/formulas/maths/TensorDot.py`) is accepted exactly
when the axes are listed correctly, its code computes the contraction, and the two operations built by `DiffT` are its
adjoints.  `Kron` is the Kronecker product.  With more than 21 loops the generated C++ code uses a loop variable that is
not an identifier, so the theorems about the code are partial.
-/

namespace Verif.TensorDot

open Spec

section
variable {da db : Nat} {dimsA dimsB : List Nat} {ca cb : List Int} {o : Option (List Int)} {t : T}

/-- The operation is accepted iff the shapes describe the two arguments, the contracted axes are distinct axes with the
same sizes, `permute` is a permutation of the kept axes, and no contracted axis is empty. -/
theorem C34_accepts : (∃ t, init da db dimsA dimsB ca cb o = some t) ↔
    da = dimsA.prod ∧ db = dimsB.prod ∧
    (ca.Nodup ∧ ∀ x ∈ ca, 0 ≤ x ∧ x < dimsA.length) ∧ (cb.Nodup ∧ ∀ x ∈ cb, 0 ≤ x ∧ x < dimsB.length) ∧
    ca.length = cb.length ∧ gather dimsA ca = gather dimsB cb ∧
    (permOf dimsA dimsB ca cb o).Perm
      ((List.range ((kept dimsA.length ca).length + (kept dimsB.length cb).length)).map (fun n : Nat => (n : Int))) ∧
    (ca = [] ∨ (gather dimsA ca).prod ≠ 0) := by
  constructor
  · rintro ⟨t, h⟩
    obtain ⟨h1, h2, perm, h3, h4, h5, h6⟩ := init_some h
    have nd : ∀ {n c}, (ints (kept n c) ++ c).Perm (ints (List.range n)) → c.Nodup := fun hp =>
      (List.nodup_append.1 (hp.nodup_iff.2 (nodup_ints.2 List.nodup_range))).2.1
    exact ⟨h1, h2, ⟨nd h4.permA, h4.bA⟩, ⟨nd h4.permB, h4.bB⟩, h4.len, h4.dims, h3.eq ▸ h4.permP, h5⟩
  · rintro ⟨rfl, rfl, ⟨a1, a2⟩, ⟨b1, b2⟩, h3, h4, h5, h6⟩
    exact ⟨_, init_eq ⟨h3, kept_perm a1 a2, kept_perm b1 b2, h5, h4⟩ h6 isPerm_permOf⟩

/-- With at most 21 loops the code computes the contraction, for all values of its arguments and whatever the output
holds initially. -/
theorem C34_value_partial (h : init da db dimsA dimsB ca cb o = some t)
    (hn : dimsA.length + dimsB.length - ca.length ≤ 21) :
    t.dim = (outShape dimsA dimsB ca cb (permOf dimsA dimsB ca cb o)).prod ∧
    ∀ out a b : CArr, out.length = t.dim → a.length = da → b.length = db →
      ∃ out', op t out a b = .ok out' ∧ out'.length = t.dim ∧
        ∀ K, Arr.Idx (outShape dimsA dimsB ca cb (permOf dimsA dimsB ca cb o)) K →
          entry (outShape dimsA dimsB ca cb (permOf dimsA dimsB ca cb o)) out' K =
            tensorDot dimsA dimsB ca cb (permOf dimsA dimsB ca cb o) (entry dimsA a) (entry dimsB b) K := by
  obtain ⟨rfl, rfl, perm, h3, h4, h5, rfl⟩ := init_some h
  rw [← h3.eq]
  exact ⟨rfl, fun out a b ho ha hb => op_eq h4 (loopdim_length h4 ▸ hn) ho ha hb⟩

/-- The operation `DiffT` applies to the incoming gradient and to the second argument is accepted, returns an array of
the dimension of the first argument, and is the adjoint of the contraction. -/
theorem C34_gradient_first_partial (h : init da db dimsA dimsB ca cb o = some t)
    (hn : dimsA.length + dimsB.length - ca.length ≤ 21) (hb : 0 < db) :
    ∃ tA, gradA t = some tA ∧ tA.dim = da ∧
      ∀ outA η b : CArr, outA.length = da → η.length = t.dim → b.length = db →
        ∃ gA, op tA outA η b = .ok gA ∧ gA.length = da ∧
          ∀ out a : CArr, out.length = t.dim → a.length = da →
            ∃ out', op t out a b = .ok out' ∧ (List.zipWith (· * ·) η out').sum = (List.zipWith (· * ·) a gA).sum := by
  obtain ⟨rfl, rfl, perm, h3, h4, h5, rfl⟩ := init_some h
  have hs := outShapeA h4
  refine ⟨_, gradA_eq h4 (by omega), by show (outShape _ _ _ _ _).prod = _; rw [hs], ?_⟩
  intro outA η b ho hη hb'
  have hl : (mk (outShape dimsA dimsB ca cb perm) dimsB (perm.drop (kept dimsA.length ca).length)
      (ints (kept dimsB.length cb)) (mkGrads dimsA dimsB ca cb perm).moveA).loopdim.length ≤ 21 := by
    rw [loopdim_length h4.gradA, h4.lenOut, ← h4.lenDrop]
    have := h4.lenP; have := h4.lenA; have := h4.lenB
    omega
  obtain ⟨gA, g1, g2, g3⟩ := op_eq h4.gradA hl (out := outA) (a := η) (b := b) (by rw [hs, ho]) hη hb'
  rw [hs] at g2 g3
  refine ⟨gA, g1, g2, ?_⟩
  intro out a ho2 ha
  obtain ⟨out', o1, o2, o3⟩ := op_eq h4 (loopdim_length h4 ▸ hn) (out := out) (a := a) (b := b) ho2 ha hb'
  refine ⟨out', o1, ?_⟩
  rw [inner_eq hη o2, inner_eq ha g2]
  rw [sumIdx_congr (fun K hK => by rw [o3 K hK]), adjointA h4]
  exact (sumIdx_congr (fun I hI => by rw [g3 I hI])).symm

/-- The same for the second argument. -/
theorem C34_gradient_second_partial (h : init da db dimsA dimsB ca cb o = some t)
    (hn : dimsA.length + dimsB.length - ca.length ≤ 21) (ha : 0 < da) :
    ∃ tB, gradB t = some tB ∧ tB.dim = db ∧
      ∀ outB η a : CArr, outB.length = db → η.length = t.dim → a.length = da →
        ∃ gB, op tB outB η a = .ok gB ∧ gB.length = db ∧
          ∀ out b : CArr, out.length = t.dim → b.length = db →
            ∃ out', op t out a b = .ok out' ∧ (List.zipWith (· * ·) η out').sum = (List.zipWith (· * ·) b gB).sum := by
  obtain ⟨rfl, rfl, perm, h3, h4, h5, rfl⟩ := init_some h
  have hs := outShapeB h4
  refine ⟨_, gradB_eq h4 (by omega), by show (outShape _ _ _ _ _).prod = _; rw [hs], ?_⟩
  intro outB η a ho hη ha'
  have hl : (mk (outShape dimsA dimsB ca cb perm) dimsA (perm.take (kept dimsA.length ca).length)
      (ints (kept dimsA.length ca)) (mkGrads dimsA dimsB ca cb perm).moveB).loopdim.length ≤ 21 := by
    rw [loopdim_length h4.gradB, h4.lenOut, ← h4.lenTake]
    have := h4.lenP; have := h4.lenA; have := h4.lenB
    omega
  obtain ⟨gB, g1, g2, g3⟩ := op_eq h4.gradB hl (out := outB) (a := η) (b := a) (by rw [hs, ho]) hη ha'
  rw [hs] at g2 g3
  refine ⟨gB, g1, g2, ?_⟩
  intro out b ho2 hb
  obtain ⟨out', o1, o2, o3⟩ := op_eq h4 (loopdim_length h4 ▸ hn) (out := out) (a := a) (b := b) ho2 ha' hb
  refine ⟨out', o1, ?_⟩
  rw [inner_eq hη o2, inner_eq hb g2]
  rw [sumIdx_congr (fun K hK => by rw [o3 K hK]), adjointB h4]
  exact (sumIdx_congr (fun I hI => by rw [g3 I hI])).symm

/-- With more than 21 loops the operation is accepted but its code does not compile. -/
theorem not_C34_axes : ∃ t, init 1 1 (List.replicate 11 1) (List.replicate 11 1) [] [] none = some t ∧
    ∀ out a b, op t out a b = .error .table := by
  obtain ⟨t, ht⟩ := (C34_accepts (da := 1) (db := 1) (dimsA := List.replicate 11 1) (dimsB := List.replicate 11 1)
    (ca := []) (cb := []) (o := none)).2 ⟨by simp, by simp, by simp, by simp, rfl, rfl, List.Perm.refl _, .inl rfl⟩
  refine ⟨t, ht, fun out a b => ?_⟩
  obtain ⟨_, _, perm, _, h4, _, rfl⟩ := init_some ht
  unfold op
  rw [if_pos]
  rw [loopdim_length h4]
  simp

end

/-! ## Kronecker products -/

/-- `Kron` is accepted for two shapes of the same rank describing the arguments. -/
theorem C34_kron_accepts {da db : Nat} {dimsA dimsB : List Nat} : (∃ t, kron da db dimsA dimsB = some t) ↔
    dimsA.length = dimsB.length ∧ da = dimsA.prod ∧ db = dimsB.prod := by
  unfold kron
  by_cases hl : dimsA.length = dimsB.length
  · rw [if_neg (by simpa using hl), C34_accepts]
    constructor
    · rintro ⟨h1, h2, -⟩; exact ⟨hl, h1, h2⟩
    · rintro ⟨-, h1, h2⟩
      refine ⟨h1, h2, by simp, by simp, rfl, rfl, ?_, .inl rfl⟩
      rw [kept_nil, kept_nil, List.length_range, List.length_range, ← hl]
      exact kronPerm_perm _
  · rw [if_pos hl]
    simp [hl]

/-- The array computed by `Kron` has the entry `A[I] * B[J]` at the multi-index whose `k`-th component is
`I[k] * D[k] + J[k]`, where `D` is the second shape; its shape is the product of the shapes. -/
theorem C34_kron_partial {da db : Nat} {dimsA dimsB : List Nat} {t : T} (h : kron da db dimsA dimsB = some t)
    (hn : dimsA.length ≤ 10) :
    t.dim = da * db ∧
    ∀ out a b : CArr, out.length = t.dim → a.length = da → b.length = db →
      ∃ out', op t out a b = .ok out' ∧ out'.length = t.dim ∧
        ∀ I J, Arr.Idx dimsA I → Arr.Idx dimsB J →
          entry (List.zipWith (· * ·) dimsA dimsB) out' (kronIdx dimsB I J) = entry dimsA a I * entry dimsB b J := by
  unfold kron at h
  by_cases hl : dimsA.length = dimsB.length
  swap
  · rw [if_pos hl] at h; cases h
  rw [if_neg (by simpa using hl)] at h
  obtain ⟨h1, h2⟩ := C34_value_partial h (by simp; omega)
  obtain ⟨ea, eb, perm, h3, h4, -, rfl⟩ := init_some h
  have hp : perm = kronPerm dimsA.length := by
    rcases h3 with h3 | ⟨h3, _⟩
    · exact (Option.some.inj h3).symm
    · cases h3
  have hs : outShape dimsA dimsB [] [] perm = interleave dimsA dimsB := by
    unfold outShape
    rw [gatherKept_nil, gatherKept_nil, hp, place_kronPerm hl]
  rw [← h3.eq, hs] at h2
  refine ⟨?_, ?_⟩
  · have := h4.prodK
    rw [gatherKept_nil, gatherKept_nil] at this
    rw [ea, eb]
    exact this
  intro out a b ho ha hb
  obtain ⟨out', o1, o2, o3⟩ := h2 out a b ho ha hb
  refine ⟨out', o1, o2, ?_⟩
  intro I J hI hJ
  have lI := idx_length hI
  have lJ := idx_length hJ
  have hv := o3 (interleave I J) (idx_interleave hI hJ hl)
  have hr : entry (List.zipWith (· * ·) dimsA dimsB) out' (kronIdx dimsB I J) =
      entry (interleave dimsA dimsB) out' (interleave I J) := by
    unfold entry
    rw [ravel_interleave hl lI (by omega)]
  rw [hr, hv]
  have key : ∀ I' J', Arr.Idx dimsA I' → Arr.Idx dimsB J' →
      (Contracts [] [] perm I' J' (interleave I J) ↔ I = I' ∧ J = J') := by
    intro I' J' hI' hJ'
    have lI' := idx_length hI'
    have lJ' := idx_length hJ'
    unfold Contracts
    rw [gatherKept_nil, gatherKept_nil, hp]
    have e : interleave I J = place (kronPerm dimsA.length) (I ++ J) := by
      rw [← lI, place_kronPerm (by omega)]
    constructor
    · rintro ⟨-, h⟩
      rw [e, place_iff (kronPerm_perm _) (by rw [length_place, List.length_append]; omega)
        (by rw [List.length_append]; omega), gather_place (kronPerm_perm _) (by rw [List.length_append]; omega)] at h
      exact List.append_inj h (by omega)
    · rintro ⟨rfl, rfl⟩
      exact ⟨rfl, e⟩
  unfold tensorDot
  have e1 : ∀ I', Arr.Idx dimsA I' → (sumIdx dimsB fun J' => if Contracts [] [] perm I' J' (interleave I J) then
      entry dimsA a I' * entry dimsB b J' else 0) = if I = I' then entry dimsA a I * entry dimsB b J else 0 := by
    intro I' hI'
    have e2 : ∀ J', Arr.Idx dimsB J' → (if Contracts [] [] perm I' J' (interleave I J) then
        entry dimsA a I' * entry dimsB b J' else 0) =
        if J = J' then (if I = I' then entry dimsA a I * entry dimsB b J else 0) else 0 := by
      intro J' hJ'
      have k := key I' J' hI' hJ'
      by_cases hJJ : J = J'
      · by_cases hII : I = I'
        · rw [if_pos (k.2 ⟨hII, hJJ⟩), if_pos hJJ, if_pos hII, hII, hJJ]
        · rw [if_neg (fun x => hII (k.1 x).1), if_pos hJJ, if_neg hII]
      · rw [if_neg (fun x => hJJ (k.1 x).2), if_neg hJJ]
    rw [sumIdx_congr e2, sumIdx_eq, Finset.sum_ite_eq, if_pos (mem_box.2 hJ)]
  rw [sumIdx_congr e1, sumIdx_eq, Finset.sum_ite_eq, if_pos (mem_box.2 hI)]

/-! ## The hypotheses are met -/

/-- The product of a `2 × 3` matrix and of a `3 × 2` matrix, transposed. -/
example : ∃ t, init 6 6 [2, 3] [3, 2] [1] [0] (some [1, 0]) = some t ∧ t.dim = 4 := by
  obtain ⟨t, ht⟩ := (C34_accepts (da := 6) (db := 6) (dimsA := [2, 3]) (dimsB := [3, 2]) (ca := [1]) (cb := [0])
    (o := some [1, 0])).2 ⟨rfl, rfl, by decide, by decide, rfl, rfl, by decide, by decide⟩
  refine ⟨t, ht, ?_⟩
  rw [(C34_value_partial ht (by decide)).1]
  decide

/-- Its entry `(0, 1)` is the product of the second row of the first matrix and of the first column of the second one. -/
example (A B : List Nat → ℝ) : tensorDot [2, 3] [3, 2] [1] [0] [1, 0] A B [0, 1] =
    A [1, 0] * B [0, 0] + A [1, 1] * B [1, 0] + A [1, 2] * B [2, 0] := by
  have c : ∀ (i : Fin 2) (k k' : Fin 3) (j : Fin 2), Contracts [1] [0] [1, 0] [i.val, k.val] [k'.val, j.val] [0, 1] ↔
      (i.val = 1 ∧ j.val = 0 ∧ k.val = k'.val) := by decide
  have e : ∀ i < 2, ∀ k < 3, ∀ k' < 3, ∀ j < 2, (if Contracts [1] [0] [1, 0] [i, k] [k', j] [0, 1] then
      A [i, k] * B [k', j] else 0) = if i = 1 ∧ j = 0 ∧ k = k' then A [i, k] * B [k', j] else 0 := by
    intro i hi k hk k' hk' j hj
    exact if_congr (c ⟨i, hi⟩ ⟨k, hk⟩ ⟨k', hk'⟩ ⟨j, hj⟩) rfl rfl
  unfold tensorDot
  simp only [sumIdx, Finset.sum_range_succ, Finset.sum_range_zero, zero_add]
  simp [e]

example : ∃ t, kron 4 6 [2, 2] [2, 3] = some t ∧ t.dim = 24 := by
  obtain ⟨t, ht⟩ := (C34_kron_accepts (da := 4) (db := 6) (dimsA := [2, 2]) (dimsB := [2, 3])).2 ⟨rfl, rfl, rfl⟩
  exact ⟨t, ht, (C34_kron_partial ht (by decide)).1⟩

end Verif.TensorDot
