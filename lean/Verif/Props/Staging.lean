import Verif.Proofs.Staging

/-!
# C59: transfers between the host and the GPU

An array on the host with this shape, whose entries have `item` bytes, is made of `item * shape.prod` bytes.
-/

namespace Verif.Staging

variable {α : Type}

/-- The number of bytes of an entry of an array of each type. -/
def itemsize (dtype : String) : ℕ := if dtype = "float64" then 8 else if dtype = "float32" then 4 else 2

/-- C59: for arrays of single or double precision with less than 2^31 entries, the copy of the arguments to the device
and the copy of the output to the host transfer exactly the bytes of the arrays; on the device, the arguments have
their contents, each array is inside the allocated memory, and arguments and output do not overlap. -/
theorem C59_partial {dtype : String} (hd : dtype = "float32" ∨ dtype = "float64") {sz : ℕ}
    (hsz : sizeofType dtype = some sz) (shapeout : List ℕ) (args : List (Mem α × List ℕ)) (buf : ℤ → α)
    (hout : shapeout.prod < 2 ^ 31) (hargs : ∀ a ∈ args, a.2.prod < 2 ^ 31)
    (htotal : itemsize dtype * (shapeout.prod + (args.map (fun a => a.2.prod)).sum) < 2 ^ 64) :
    -- the numbers of bytes transferred
    (∀ a ∈ args, byteCount sz (intProduct a.2) = itemsize dtype * a.2.prod) ∧
    copyBack sz shapeout = itemsize dtype * shapeout.prod ∧
    -- the memory of the device
    ∃ pos : ℕ → ℕ,
      (loadArgsFromHost sz shapeout args buf).outPos = 0 ∧
      (∀ k (hk : k < args.length), (loadArgsFromHost sz shapeout args buf).argPos[k]? = some (pos k : ℤ) ∧
        (∀ b < itemsize dtype * args[k].2.prod, (loadArgsFromHost sz shapeout args buf).buf (pos k + b : ℕ) =
          args[k].1 b) ∧
        itemsize dtype * shapeout.prod ≤ pos k ∧
        pos k + itemsize dtype * args[k].2.prod ≤ (loadArgsFromHost sz shapeout args buf).allocated) ∧
      ∀ k j (hk : k < args.length), j < args.length → k < j → pos k + itemsize dtype * args[k].2.prod ≤ pos j := by
  have hsz8 : sz ≤ 8 ∧ sz = itemsize dtype := by
    rcases hd with rfl | rfl
    · obtain rfl : 4 = sz := by
        have h : sizeofType "float32" = some 4 := by decide +kernel
        rw [h] at hsz
        injection hsz
      exact ⟨by norm_num, by decide +kernel⟩
    · obtain rfl : 8 = sz := by
        have h : sizeofType "float64" = some 8 := by decide +kernel
        rw [h] at hsz
        injection hsz
      exact ⟨by norm_num, by decide +kernel⟩
  obtain ⟨h8, hi⟩ := hsz8
  rw [← hi] at htotal ⊢
  have hcount : ∀ l : List ℕ, l.prod < 2 ^ 31 → byteCount sz (intProduct l) = sz * l.prod := fun l hl => by
    rw [intProduct_of_lt hl]
    exact byteCount_of_lt (lt_of_le_of_lt (Nat.mul_le_mul h8 hl.le) (by norm_num))
  refine ⟨fun a ha => hcount _ (hargs a ha), hcount _ hout,
    fun k => sz * shapeout.prod + ((args.take k).map (fun a => sz * a.2.prod)).sum, rfl, fun k hk => ?_,
    fun k j hk _ hkj => ?_⟩
  · have hbase : (sz : ℤ) * intProduct shapeout = ((sz * shapeout.prod : ℕ) : ℤ) := by
      rw [intProduct_of_lt hout]; push_cast; rfl
    obtain ⟨-, -, h3, h4⟩ := loadLoop_spec h8 args hargs (sz * intProduct shapeout) buf
    refine ⟨?_, fun b hb => ?_, Nat.le_add_right _ _, ?_⟩
    · show (loadLoop sz (sz * intProduct shapeout) args buf).1[k]? = _
      rw [h3 k hk, hbase]
      push_cast
      rfl
    · show (loadLoop sz (sz * intProduct shapeout) args buf).2 _ = _
      rw [← h4 k hk b hb, hbase]
      push_cast
      rfl
    · show _ ≤ byteCount sz (totalSize (intProduct shapeout) args)
      rw [intProduct_of_lt hout, totalSize_eq args hargs, byteCount_of_lt htotal, Nat.mul_add]
      have h1 := le_of_prefix (l := args.map (fun a => sz * a.2.prod)) (k := k) (j := args.length) hk
        (by simpa using hk)
      rw [← List.map_take, ← List.map_take, List.take_length, List.getElem_map] at h1
      have h2 : (args.map (fun a => sz * a.2.prod)).sum = sz * (args.map (fun a => a.2.prod)).sum :=
        sum_map_mul sz args
      simp only
      omega
  · have h1 := le_of_prefix (l := args.map (fun a => sz * a.2.prod)) (k := k) (j := j) hkj (by simpa using hk)
    rw [← List.map_take, ← List.map_take, List.getElem_map] at h1
    simp only
    omega

/-- A refutation of C59 for arrays with 2^32 entries: the product of the sizes is computed with 32 bits, so that
nothing is copied and no memory is allocated: the kernel sees the previous contents of the device. -/
theorem not_C59_large (arg : Mem α) (buf : ℤ → α) :
    ([65536, 65536] : List ℕ).prod = 2 ^ 32 ∧
    (loadArgsFromHost 4 [0] [(arg, [65536, 65536])] buf).argPos = [0] ∧
    (loadArgsFromHost 4 [0] [(arg, [65536, 65536])] buf).buf 0 = buf 0 ∧
    (loadArgsFromHost 4 [0] [(arg, [65536, 65536])] buf).allocated = 0 ∧
    copyBack 4 [65536, 65536] = 0 := by
  have h1 : intProduct [65536, 65536] = 0 := by decide
  have h2 : intProduct [0] = 0 := by decide
  have h3 : byteCount 4 0 = 0 := by decide
  refine ⟨by norm_num, ?_, ?_, ?_, ?_⟩
  · simp [loadArgsFromHost, loadLoop, h2]
  · simp only [loadArgsFromHost, loadLoop, h1, h2, h3]
    exact memcpy_out (.inr (by simp))
  · simp [loadArgsFromHost, totalSize, h1, h2, h3]
  · rw [copyBack, h1, h3]

/-- A refutation of C59 for half precision, for all shapes: the sizes count numbers of two bytes and `TYPE` has four,
so that twice the bytes of each array are read from the host, and twice the bytes of the output are written. -/
theorem not_C59_half {shape : List ℕ} (h : shape.prod < 2 ^ 31) {sz : ℕ} (hsz : sizeofType "float16" = some sz) :
    byteCount sz (intProduct shape) = 2 * (itemsize "float16" * shape.prod) ∧
    copyBack sz shape = 2 * (itemsize "float16" * shape.prod) := by
  obtain rfl : 4 = sz := by
    have h : sizeofType "float16" = some 4 := by decide +kernel
    rw [h] at hsz
    injection hsz
  have hi : itemsize "float16" = 2 := by decide +kernel
  have hc : byteCount 4 (intProduct shape) = 4 * shape.prod := by
    rw [intProduct_of_lt h]
    exact byteCount_of_lt (by omega)
  rw [copyBack, hc, hi]
  omega

/-- A refutation of C59 for the ranges on the host: twice the entries of `slices`, which has one entry per range, are
copied.  The entries that are copied when only the data is on the device are those of the arrays. -/
theorem not_C59_slices (nranges nredranges : ℕ) (h : 0 < nranges) :
    nranges < (rangeCopies false nranges nredranges).1 ∧ (rangeCopies false nranges nredranges).2 = 2 * nredranges ∧
    (rangeCopies true nranges nranges) = (nranges, 2 * nranges) := by
  refine ⟨?_, rfl, rfl⟩
  simp only [rangeCopies, Bool.false_eq_true, if_false]
  omega

/-- `C59_partial` applies to arrays of shapes (4, 3), (5, 3) and (2) in double precision. -/
example (a b p : Mem α) (buf : ℤ → α) : ∃ pos : ℕ → ℕ, ∀ j < 120,
    (loadArgsFromHost 8 [4, 1] [(a, [4, 3]), (b, [5, 3]), (p, [2])] buf).buf (pos 1 + j : ℕ) = b j := by
  obtain ⟨-, -, pos, -, h, -⟩ := C59_partial (dtype := "float64") (.inr rfl) (sz := 8) (by decide +kernel) [4, 1]
    [(a, [4, 3]), (b, [5, 3]), (p, [2])] buf (by norm_num) (by simp) (by
      have : itemsize "float64" = 8 := by decide +kernel
      rw [this]; norm_num)
  have hi : itemsize "float64" = 8 := by decide +kernel
  exact ⟨pos, fun j hj => (h 1 (by simp)).2.1 j (by rw [hi]; simpa using hj)⟩

end Verif.Staging
