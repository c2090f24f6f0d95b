import Verif.Proofs.TensorSum

/-!
# The constructor of `TensorDot`
-/

namespace Verif.TensorDot

open Spec Finset

/-- The axes are listed correctly. -/
structure Valid (dimsA dimsB : List Nat) (ca cb perm : List Int) : Prop where
  len : ca.length = cb.length
  permA : (ints (kept dimsA.length ca) ++ ca).Perm (ints (List.range dimsA.length))
  permB : (ints (kept dimsB.length cb) ++ cb).Perm (ints (List.range dimsB.length))
  permP : perm.Perm (ints (List.range ((kept dimsA.length ca).length + (kept dimsB.length cb).length)))
  dims : gather dimsA ca = gather dimsB cb

/-- The first part of the constructor in that case. -/
def mkAxes (dimsA dimsB : List Nat) (ca cb perm : List Int) : Axes :=
  ⟨gather dimsA ca, kept dimsA.length ca, gatherKept dimsA ca, kept dimsB.length cb, gatherKept dimsB cb,
    outShape dimsA dimsB ca cb perm, (outShape dimsA dimsB ca cb perm).prod, perm⟩

/-- The second part. -/
def mkLoops (dimsA dimsB : List Nat) (ca cb perm : List Int) : Loops :=
  let ka := (kept dimsA.length ca).length
  let k := ka + (kept dimsB.length cb).length
  ⟨place (ints (kept dimsA.length ca) ++ ca) (List.range ka ++ rangeFrom k (k + ca.length)),
    place (ints (kept dimsB.length cb) ++ cb) (rangeFrom ka k ++ rangeFrom k (k + ca.length)),
    place perm (List.range k)⟩

/-- The third part. -/
def mkGrads (dimsA dimsB : List Nat) (ca cb perm : List Int) : Grads :=
  let ka := (kept dimsA.length ca).length
  ⟨outShape dimsA dimsB ca cb perm,
    ints ((argsort (perm.take ka)).map fun i => (kept dimsA.length ca).getD i 0) ++
      (argsort cb).map fun i => ca.getD i 0,
    ints ((argsort (perm.drop ka)).map fun i => (kept dimsB.length cb).getD i 0) ++
      (argsort ca).map fun i => cb.getD i 0,
    perm.drop ka, perm.take ka⟩

/-- The object built in that case. -/
def mk (dimsA dimsB : List Nat) (ca cb perm : List Int) : T :=
  { dim := (outShape dimsA dimsB ca cb perm).prod
    dimsA := dimsA
    dimsB := dimsB
    loopdim := gatherKept dimsA ca ++ gatherKept dimsB cb ++ gather dimsA ca
    loops := mkLoops dimsA dimsB ca cb perm
    strOut := cumprodArray (outShape dimsA dimsB ca cb perm)
    strA := cumprodArray dimsA
    strB := cumprodArray dimsB
    keepIdxA := kept dimsA.length ca
    keepIdxB := kept dimsB.length cb
    grads := mkGrads dimsA dimsB ca cb perm }

theorem length_gatherKept (l : List Nat) (c : List Int) : (gatherKept l c).length = (kept l.length c).length := by
  simp [gatherKept]

theorem length_rangeFrom (a b : Nat) : (rangeFrom a b).length = b - a := by simp [rangeFrom]

theorem range_append (a b : Nat) (h : a ≤ b) : List.range a ++ rangeFrom a b = List.range b := by
  unfold rangeFrom
  rw [← List.range_add]
  congr 1
  omega

theorem map_take (p : List Int) {a : Nat} (h : a ≤ p.length) :
    (List.range a).map (fun i => p.getD i 0) = p.take a := by
  apply List.ext_getElem (by simp [h])
  intro i h1 h2
  have : i < p.length := by simp at h2; omega
  simp [this]

theorem map_drop (p : List Int) {a : Nat} :
    (rangeFrom a p.length).map (fun i => p.getD i 0) = p.drop a := by
  apply List.ext_getElem (by simp [length_rangeFrom])
  intro i h1 h2
  have : a + i < p.length := by simp at h2; omega
  simp [rangeFrom, this]

theorem gather_range (l : List Nat) : gather l (ints (List.range l.length)) = l := by
  unfold gather ints
  rw [List.map_map]
  exact map_getD_range 0 l

theorem place_range {n : Nat} {l : List Nat} (h : l.length = n) : place (ints (List.range n)) l = l := by
  subst h
  conv_lhs => rw [← gather_range l]
  rw [length_gather, length_ints, List.length_range]
  exact place_gather (List.Perm.refl _) rfl

theorem prod_gather {p : List Int} {s : List Nat} (h : p.Perm (ints (List.range s.length))) :
    (gather s p).prod = s.prod := by
  have := (h.map (fun i => s.getD i.toNat 0)).prod_eq
  rw [show ((ints (List.range s.length)).map fun i => s.getD i.toNat 0) = s from gather_range s] at this
  exact this

theorem prod_place {p : List Int} {s : List Nat} (h : p.Perm (ints (List.range s.length))) :
    (place p s).prod = s.prod := by
  have h2 : p.Perm (ints (List.range (place p s).length)) := by rwa [length_place]
  rw [← prod_gather h2, gather_place h rfl]

section
variable {dimsA dimsB : List Nat} {ca cb perm : List Int}

theorem Valid.lenA (h : Valid dimsA dimsB ca cb perm) :
    (kept dimsA.length ca).length + ca.length = dimsA.length := by
  simpa [length_ints] using h.permA.length_eq

theorem Valid.lenB (h : Valid dimsA dimsB ca cb perm) :
    (kept dimsB.length cb).length + ca.length = dimsB.length := by
  rw [h.len]
  simpa [length_ints] using h.permB.length_eq

theorem Valid.lenP (h : Valid dimsA dimsB ca cb perm) :
    perm.length = (kept dimsA.length ca).length + (kept dimsB.length cb).length := by
  simpa [length_ints] using h.permP.length_eq

theorem Valid.bA (h : Valid dimsA dimsB ca cb perm) : ∀ x ∈ ca, 0 ≤ x ∧ x < dimsA.length :=
  fun x hx => perm_bounds h.permA x (List.mem_append_right _ hx)

theorem Valid.bB (h : Valid dimsA dimsB ca cb perm) : ∀ x ∈ cb, 0 ≤ x ∧ x < dimsB.length :=
  fun x hx => perm_bounds h.permB x (List.mem_append_right _ hx)

theorem Valid.prodA (h : Valid dimsA dimsB ca cb perm) :
    (gatherKept dimsA ca).prod * (gather dimsA ca).prod = dimsA.prod := by
  have := prod_gather h.permA
  rwa [gather_append, gather_ints_kept, List.prod_append] at this

theorem Valid.prodB (h : Valid dimsA dimsB ca cb perm) :
    (gatherKept dimsB cb).prod * (gather dimsA ca).prod = dimsB.prod := by
  have := prod_gather h.permB
  rwa [gather_append, gather_ints_kept, List.prod_append, ← h.dims] at this

theorem Valid.lenKeep (h : Valid dimsA dimsB ca cb perm) :
    (gatherKept dimsA ca ++ gatherKept dimsB cb).length = perm.length := by
  rw [List.length_append, length_gatherKept, length_gatherKept, h.lenP]

theorem Valid.permP' (h : Valid dimsA dimsB ca cb perm) :
    perm.Perm (ints (List.range (gatherKept dimsA ca ++ gatherKept dimsB cb).length)) := by
  rw [h.lenKeep, h.lenP]; exact h.permP

theorem Valid.prodK (h : Valid dimsA dimsB ca cb perm) :
    (outShape dimsA dimsB ca cb perm).prod = (gatherKept dimsA ca).prod * (gatherKept dimsB cb).prod := by
  unfold outShape
  rw [prod_place h.permP', List.prod_append]

theorem Valid.lenOut (h : Valid dimsA dimsB ca cb perm) :
    (outShape dimsA dimsB ca cb perm).length = perm.length := by
  unfold outShape
  rw [length_place, h.lenKeep]

theorem permutation_gen (d : ℤ) {p : List Int} {l : List Int} (h : p.length = l.length) :
    permutation p l = some ((argsort p).map fun i => l.getD i d) := by
  unfold permutation
  refine selectNat_eq d fun i hi => ?_
  have := (argsort_perm p).subset hi
  rw [List.mem_range] at this
  omega

theorem permutation_genN (d : ℕ) {p : List Int} {l : List Nat} (h : p.length = l.length) :
    permutation p l = some ((argsort p).map fun i => l.getD i d) := by
  unfold permutation
  refine selectNat_eq d fun i hi => ?_
  have := (argsort_perm p).subset hi
  rw [List.mem_range] at this
  omega

theorem loops_eq (h : Valid dimsA dimsB ca cb perm) :
    loops dimsA.length dimsB.length ca cb (mkAxes dimsA dimsB ca cb perm) = some (mkLoops dimsA dimsB ca cb perm) := by
  have hA := h.lenA
  have hB := h.lenB
  have hnl : dimsA.length + dimsB.length - ca.length =
      (kept dimsA.length ca).length + (kept dimsB.length cb).length + ca.length := by omega
  unfold loops mkAxes
  simp only [Axes.keep, List.length_append, length_gatherKept, hnl]
  rw [permutation_eq h.permA, permutation_eq h.permB, permutation_eq h.permP (List.length_range)]
  · rfl
  · rw [List.length_append, length_rangeFrom, length_rangeFrom]; omega
  · rw [List.length_append, length_rangeFrom, List.length_range]; omega

theorem grads_eq (h : Valid dimsA dimsB ca cb perm) :
    grads ca cb (mkAxes dimsA dimsB ca cb perm) = some (mkGrads dimsA dimsB ca cb perm) := by
  have hP := h.lenP
  have hk : (gatherKept dimsA ca ++ gatherKept dimsB cb).length =
      (kept dimsA.length ca).length + (kept dimsB.length cb).length := by rw [h.lenKeep, hP]
  unfold grads mkAxes
  simp only [Axes.keep, List.length_append, length_gatherKept]
  rw [permutation_eq h.permP hk, permutation_gen 0 h.len.symm, permutation_gen 0 h.len,
    selectNat_eq 0 (by intro i hi; simp at hi; omega), selectNat_eq 0 (by
      intro i hi; unfold rangeFrom at hi; simp at hi; omega), map_take _ (by omega)]
  have e := map_drop perm (a := (kept dimsA.length ca).length)
  rw [hP] at e
  rw [e]
  simp only [Option.bind_eq_bind, Option.bind_some]
  rw [permutation_genN 0 (by simp; omega)]
  simp only [Option.bind_some]
  rw [permutation_genN 0 (by simp; omega)]
  rfl

theorem dimOf_eq (h : Valid dimsA dimsB ca cb perm) (h0 : ca = [] ∨ (gather dimsA ca).prod ≠ 0) :
    dimOf dimsA.prod dimsB.prod ca (gather dimsA ca) = some (outShape dimsA dimsB ca cb perm).prod := by
  rw [h.prodK]
  unfold dimOf
  by_cases hc : ca = []
  · rw [if_pos hc]
    have := h.prodA
    have h2 := h.prodB
    rw [hc] at this h2 ⊢
    simp only [gather, List.map_nil, List.prod_nil, mul_one] at this h2
    rw [this, h2]
  · have hz : (gather dimsA ca).prod ≠ 0 := h0.resolve_left hc
    rw [if_neg hc, if_neg hz]
    congr 1
    rw [← h.prodA, ← h.prodB]
    apply Nat.div_eq_of_eq_mul_left (by positivity)
    ring

theorem permuteOf_eq {n : Nat} {o : Option (List Int)} (h : permuteOf n o = some perm) :
    perm.Perm (ints (List.range n)) ∧ (o = some perm ∨ o = none ∧ perm = ints (List.range n)) := by
  cases o with
  | none =>
    simp only [permuteOf, Option.some.injEq] at h
    rw [← h]
    exact ⟨List.Perm.refl _, .inr ⟨rfl, rfl⟩⟩
  | some p =>
    simp only [permuteOf, Option.bind_eq_bind, Option.bind_eq_some_iff] at h
    obtain ⟨q, hq, hh⟩ := h
    by_cases e : q = ints (List.range n)
    · rw [if_pos e] at hh
      obtain rfl : p = perm := Option.some.inj hh
      refine ⟨?_, .inl rfl⟩
      rw [permutation_gen 0 rfl] at hq
      rw [← e, ← Option.some.inj hq]
      exact (map_argsort_perm 0 p).symm
    · rw [if_neg e] at hh; cases hh

/-- What `permute` may be: a given permutation, or the identity. -/
def IsPerm (o : Option (List Int)) (perm : List Int) (n : Nat) : Prop :=
  o = some perm ∨ o = none ∧ perm = ints (List.range n)

theorem axes_eq (h : Valid dimsA dimsB ca cb perm) (h0 : ca = [] ∨ (gather dimsA ca).prod ≠ 0)
    {o : Option (List Int)} (ho : IsPerm o perm ((kept dimsA.length ca).length + (kept dimsB.length cb).length)) :
    axes dimsA.prod dimsB.prod dimsA dimsB ca cb o = some (mkAxes dimsA dimsB ca cb perm) := by
  have hk : (gatherKept dimsA ca ++ gatherKept dimsB cb).length =
      (kept dimsA.length ca).length + (kept dimsB.length cb).length := by rw [h.lenKeep, h.lenP]
  have hpk : (o.elim (some (gatherKept dimsA ca ++ gatherKept dimsB cb)) fun p =>
      permutation p (gatherKept dimsA ca ++ gatherKept dimsB cb)) = some (outShape dimsA dimsB ca cb perm) := by
    rcases ho with rfl | ⟨rfl, hp⟩
    · simp only [Option.elim]
      rw [permutation_eq h.permP hk]
      rfl
    · simp only [Option.elim]
      unfold outShape
      rw [hp, place_range hk]
  have hpp : permuteOf (gatherKept dimsA ca ++ gatherKept dimsB cb).length o = some perm := by
    rw [hk]
    rcases ho with rfl | ⟨rfl, hp⟩
    · simp only [permuteOf]
      rw [permutation_gen 0 rfl, argsort_unique h.permP (sorted_range _)]
      simp
    · simp only [permuteOf]
      rw [hp]
  unfold axes
  rw [select_eq h.bB, select_eq h.bA, ← h.dims, delete_range, delete_range, delete_eq, delete_eq]
  simp only [Option.bind_eq_bind, Option.bind_some, ne_eq, not_true_eq_false, or_self, if_false]
  rw [hpk, dimOf_eq h h0, hpp]
  rfl

/-- The constructor succeeds on valid lists of axes. -/
theorem init_eq (h : Valid dimsA dimsB ca cb perm) (h0 : ca = [] ∨ (gather dimsA ca).prod ≠ 0)
    {o : Option (List Int)} (ho : IsPerm o perm ((kept dimsA.length ca).length + (kept dimsB.length cb).length)) :
    init dimsA.prod dimsB.prod dimsA dimsB ca cb o = some (mk dimsA dimsB ca cb perm) := by
  unfold init
  rw [axes_eq h h0 ho]
  simp only [Option.bind_eq_bind, Option.bind_some]
  rw [loops_eq h, grads_eq h]
  rfl

theorem kept_length_le (n : Nat) (c : List Int) : n ≤ (kept n c).length + c.length ∧
    (n = (kept n c).length + c.length → c.Nodup ∧ ∀ x ∈ c, 0 ≤ x ∧ x < n) := by
  have hf : (List.range n).length = (kept n c).length + ((List.range n).filter (fun i : Nat => (i : Int) ∈ c)).length := by
    unfold kept
    have := List.length_eq_length_filter_add (l := List.range n) (fun i => decide ((i : Int) ∉ c))
    rw [this]
    congr 2
    apply List.filter_congr
    intro x _
    simp
  set m := (List.range n).filter (fun i : Nat => (i : Int) ∈ c) with hm
  have hn : (ints m).Nodup := nodup_ints.2 (List.nodup_range.filter _)
  have hsub : ints m ⊆ c := by
    intro x hx
    obtain ⟨k, h, rfl⟩ := mem_ints.1 hx
    simpa using (List.mem_filter.1 h).2
  have hsp := hn.subperm hsub
  have hl := hsp.length_le
  rw [length_ints] at hl
  rw [List.length_range] at hf
  refine ⟨by omega, fun e => ?_⟩
  have hp := hsp.perm_of_length_le (by rw [length_ints]; omega)
  refine ⟨hp.nodup_iff.1 hn, fun x hx => ?_⟩
  obtain ⟨k, h, rfl⟩ := mem_ints.1 (hp.symm.subset hx)
  have : k < n := by simpa using (List.mem_filter.1 h).1
  omega

theorem permutation_length {α : Type} {p : List Int} {l r : List α} (h : permutation p l = some r) :
    p.length ≤ l.length := by
  have h2 := (selectNat_some h).2
  by_contra hlt
  have : l.length ∈ argsort p := (argsort_perm p).symm.subset (List.mem_range.2 (by omega))
  exact absurd (h2 _ this) (lt_irrefl _)

/-- If the constructor succeeds then the lists of axes are valid. -/
theorem init_some {da db : Nat} {o : Option (List Int)} {t : T} (h : init da db dimsA dimsB ca cb o = some t) :
    da = dimsA.prod ∧ db = dimsB.prod ∧ ∃ perm,
      IsPerm o perm ((kept dimsA.length ca).length + (kept dimsB.length cb).length) ∧
      Valid dimsA dimsB ca cb perm ∧ (ca = [] ∨ (gather dimsA ca).prod ≠ 0) ∧ t = mk dimsA dimsB ca cb perm := by
  have h' := h
  unfold init at h
  simp only [Option.bind_eq_bind, Option.bind_eq_some_iff] at h
  obtain ⟨x, hx, l, hl, -⟩ := h
  unfold axes at hx
  simp only [Option.bind_eq_bind, Option.bind_eq_some_iff] at hx
  obtain ⟨contB, hB, contA, hA, hx⟩ := hx
  by_cases h1 : contB ≠ contA ∨ da ≠ dimsA.prod ∨ db ≠ dimsB.prod
  · rw [if_pos h1] at hx; cases hx
  rw [if_neg h1] at hx
  simp only [delete_range, delete_eq, Option.bind_eq_some_iff, Option.some.injEq, exists_eq_left', Option.pure_def] at hx
  obtain ⟨pk, hpk, dim, hdim, permute, hperm, rfl⟩ := hx
  unfold loops at hl
  simp only [Option.bind_eq_bind, Option.bind_eq_some_iff] at hl
  obtain ⟨idxA, hidxA, idxB, hidxB, -⟩ := hl
  push Not at h1
  obtain ⟨h1, h2, h3⟩ := h1
  have hl : ca.length = cb.length := by rw [← select_length hA, ← select_length hB, h1]
  have lA := permutation_length hidxA
  have lB := permutation_length hidxB
  simp only [Axes.keep, List.length_append, length_ints, List.length_range, length_rangeFrom, length_gatherKept] at lA lB
  obtain ⟨a1, a2⟩ := kept_length_le dimsA.length ca
  obtain ⟨b1, b2⟩ := kept_length_le dimsB.length cb
  have a3 : (kept dimsA.length ca).length ≤ dimsA.length := by
    unfold kept; exact (List.length_filter_le _ _).trans_eq List.length_range
  have b3 : (kept dimsB.length cb).length ≤ dimsB.length := by
    unfold kept; exact (List.length_filter_le _ _).trans_eq List.length_range
  obtain ⟨nA, bA⟩ := a2 (by omega)
  obtain ⟨nB, bB⟩ := b2 (by omega)
  have hk : (gatherKept dimsA ca ++ gatherKept dimsB cb).length =
      (kept dimsA.length ca).length + (kept dimsB.length cb).length := by
    rw [List.length_append, length_gatherKept, length_gatherKept]
  have hcA : contA = gather dimsA ca := by
    have := select_eq bA; rw [hA] at this; exact Option.some.inj this
  have hcB : contB = gather dimsB cb := by
    have := select_eq bB; rw [hB] at this; exact Option.some.inj this
  rw [hk] at hperm
  obtain ⟨hp1, hp2⟩ := permuteOf_eq hperm
  have hv : Valid dimsA dimsB ca cb permute :=
    ⟨hl, kept_perm nA bA, kept_perm nB bB, hp1, by rw [← hcA, ← hcB, h1]⟩
  have h0 : ca = [] ∨ (gather dimsA ca).prod ≠ 0 := by
    by_cases hc : ca = []
    · exact .inl hc
    · right
      intro hz
      unfold dimOf at hdim
      rw [if_neg hc, hcA, if_pos hz] at hdim
      cases hdim
  refine ⟨h2, h3, permute, hp2, hv, h0, ?_⟩
  rw [h2, h3, init_eq hv h0 hp2] at h'
  exact (Option.some.inj h').symm

end

end Verif.TensorDot
