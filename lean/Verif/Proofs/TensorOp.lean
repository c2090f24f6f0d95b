import Verif.Proofs.Tensor

/-!
# The code generated by `TensorDot`, and its gradients
-/

namespace Verif.TensorDot

open Spec Finset

theorem idx_append {s t F : List Nat} (h : Arr.Idx (s ++ t) F) :
    ∃ f g, F = f ++ g ∧ Arr.Idx s f ∧ Arr.Idx t g := by
  induction s generalizing F with
  | nil => exact ⟨[], F, rfl, .nil, h⟩
  | cons n s ih =>
    cases h with
    | cons h1 h2 =>
      obtain ⟨f, g, rfl, h3, h4⟩ := ih h2
      exact ⟨_ :: f, g, rfl, .cons h1 h3, h4⟩

theorem idx_append_mk {s t f g : List Nat} (h1 : Arr.Idx s f) (h2 : Arr.Idx t g) : Arr.Idx (s ++ t) (f ++ g) := by
  induction h1 with
  | nil => exact h2
  | cons h _ ih => exact .cons h ih

theorem idx_length {s F : List Nat} (h : Arr.Idx s F) : F.length = s.length := (idx_iff.1 h).1

theorem gather_parts {p q : List Int} {n : Nat} (h : (p ++ q).Perm (ints (List.range n))) {f g : List Nat}
    (hf : f.length = p.length) (hg : g.length = q.length) :
    gather (place (p ++ q) (f ++ g)) p = f ∧ gather (place (p ++ q) (f ++ g)) q = g := by
  have hn : p.length + q.length = n := by simpa [length_ints] using h.length_eq
  have e := gather_place h (l := f ++ g) (by rw [List.length_append]; omega)
  rw [gather_append] at e
  exact List.append_inj e (by rw [length_gather, hf])

theorem perm_mem {p : List Int} {n : Nat} (h : p.Perm (ints (List.range n))) (r : Nat) (hr : r < n) : (r : Int) ∈ p :=
  h.symm.subset (mem_ints.2 ⟨r, List.mem_range.2 hr, rfl⟩)

/-- A position in the generated code. -/
theorem position_place {s : List Nat} {p : List Int} (h : p.Perm (ints (List.range s.length))) {vars F l : List Nat}
    (hv : vars.length = s.length) (hl : vars.map (fun v => F.getD v 0) = l) :
    position (place p vars) (cumprodArray s) F = ravel s (place p l) := by
  have hp : p.length = s.length := by simpa [length_ints] using h.length_eq
  rw [position_eq (by rw [length_place, hv]), place_map _ _ _ (fun r hr => perm_mem h r (by omega)) (by omega), hl]

theorem map_range_append (f g : List Nat) :
    (List.range f.length).map (fun v => (f ++ g).getD v 0) = f := by
  apply List.ext_getElem (by simp)
  intro i h1 h2
  simp [List.getElem?_append_left h2, h2]

theorem map_rangeFrom_append (f g : List Nat) :
    (rangeFrom f.length (f.length + g.length)).map (fun v => (f ++ g).getD v 0) = g := by
  unfold rangeFrom
  apply List.ext_getElem (by simp)
  intro i h1 h2
  simp [h2]

theorem map_rangeFrom_mid (f g h : List Nat) :
    (rangeFrom f.length (f.length + g.length)).map (fun v => (f ++ g ++ h).getD v 0) = g := by
  unfold rangeFrom
  apply List.ext_getElem (by simp)
  intro i h1 h2
  simp [List.getElem?_append_right, List.getElem?_append_left h2, h2]

section
variable {dimsA dimsB : List Nat} {ca cb perm : List Int}

theorem Valid.gatherA (h : Valid dimsA dimsB ca cb perm) {f g : List Nat}
    (hf : f.length = (kept dimsA.length ca).length) (hg : g.length = ca.length) :
    gatherKept (place (ints (kept dimsA.length ca) ++ ca) (f ++ g)) ca = f ∧
      gather (place (ints (kept dimsA.length ca) ++ ca) (f ++ g)) ca = g := by
  have hl : (place (ints (kept dimsA.length ca) ++ ca) (f ++ g)).length = dimsA.length := by
    rw [length_place, List.length_append, ← h.lenA, hf, hg]
  rw [← gather_ints_kept, hl]
  exact gather_parts h.permA (by rw [length_ints, hf]) hg

theorem Valid.gatherB (h : Valid dimsA dimsB ca cb perm) {f g : List Nat}
    (hf : f.length = (kept dimsB.length cb).length) (hg : g.length = cb.length) :
    gatherKept (place (ints (kept dimsB.length cb) ++ cb) (f ++ g)) cb = f ∧
      gather (place (ints (kept dimsB.length cb) ++ cb) (f ++ g)) cb = g := by
  have hl : (place (ints (kept dimsB.length cb) ++ cb) (f ++ g)).length = dimsB.length := by
    rw [length_place, List.length_append, ← h.lenB, hf, hg, h.len]
  rw [← gather_ints_kept, hl]
  exact gather_parts h.permB (by rw [length_ints, hf]) hg

/-- The specification, with one sum per kept axis and one sum per pair of contracted axes. -/
theorem tensorDot_eq (h : Valid dimsA dimsB ca cb perm) (A B : List Nat → ℝ) (K : List Nat) :
    tensorDot dimsA dimsB ca cb perm A B K =
      sumIdx (gatherKept dimsA ca) fun f => sumIdx (gatherKept dimsB cb) fun g => sumIdx (gather dimsA ca) fun c =>
        if K = place perm (f ++ g) then A (place (ints (kept dimsA.length ca) ++ ca) (f ++ c)) *
          B (place (ints (kept dimsB.length cb) ++ cb) (g ++ c)) else 0 := by
  unfold tensorDot
  rw [sum_place h.permA]
  rw [gather_append, gather_ints_kept, sumIdx_append]
  apply sumIdx_congr
  intro f hf
  have hf' := idx_length hf
  rw [length_gatherKept] at hf'
  have e1 : ∀ c, Arr.Idx (gather dimsA ca) c →
      (sumIdx dimsB fun J => if Contracts ca cb perm (place (ints (kept dimsA.length ca) ++ ca) (f ++ c)) J K then
        A (place (ints (kept dimsA.length ca) ++ ca) (f ++ c)) * B J else 0) =
      sumIdx (gatherKept dimsB cb) fun g => if K = place perm (f ++ g) then
        A (place (ints (kept dimsA.length ca) ++ ca) (f ++ c)) *
          B (place (ints (kept dimsB.length cb) ++ cb) (g ++ c)) else 0 := by
    intro c hc
    have hc' := idx_length hc
    rw [length_gather] at hc'
    rw [sum_place h.permB, gather_append, gather_ints_kept, sumIdx_append]
    apply sumIdx_congr
    intro g hg
    have hg' := idx_length hg
    rw [length_gatherKept] at hg'
    have e2 : ∀ c', Arr.Idx (gather dimsB cb) c' →
        (if Contracts ca cb perm (place (ints (kept dimsA.length ca) ++ ca) (f ++ c))
          (place (ints (kept dimsB.length cb) ++ cb) (g ++ c')) K then
            A (place (ints (kept dimsA.length ca) ++ ca) (f ++ c)) *
              B (place (ints (kept dimsB.length cb) ++ cb) (g ++ c')) else 0) =
        if c = c' then (if K = place perm (f ++ g) then A (place (ints (kept dimsA.length ca) ++ ca) (f ++ c)) *
          B (place (ints (kept dimsB.length cb) ++ cb) (g ++ c)) else 0) else 0 := by
      intro c' hc2
      have hc2' := idx_length hc2
      rw [length_gather] at hc2'
      obtain ⟨a1, a2⟩ := h.gatherA hf' hc'
      obtain ⟨b1, b2⟩ := h.gatherB hg' hc2'
      have hcon : Contracts ca cb perm (place (ints (kept dimsA.length ca) ++ ca) (f ++ c))
          (place (ints (kept dimsB.length cb) ++ cb) (g ++ c')) K ↔ c = c' ∧ K = place perm (f ++ g) := by
        unfold Contracts
        rw [a1, a2, b1, b2]
      by_cases hcc : c = c'
      · subst hcc
        rw [if_pos rfl]
        by_cases hK : K = place perm (f ++ g)
        · rw [if_pos (hcon.2 ⟨rfl, hK⟩), if_pos hK]
        · rw [if_neg (fun x => hK (hcon.1 x).2), if_neg hK]
      · rw [if_neg (fun x => hcc (hcon.1 x).1), if_neg hcc]
    rw [sumIdx_congr e2, sumIdx_eq, sum_ite_eq, if_pos (mem_box.2 (h.dims ▸ hc))]
  rw [sumIdx_congr e1]
  simp only [sumIdx_eq]
  exact sum_comm

/-- The result of the generated code. -/
theorem op_eq (h : Valid dimsA dimsB ca cb perm) (hn : (mk dimsA dimsB ca cb perm).loopdim.length ≤ 21)
    {out a b : CArr} (ho : out.length = (outShape dimsA dimsB ca cb perm).prod) (ha : a.length = dimsA.prod)
    (hb : b.length = dimsB.prod) :
    ∃ out', op (mk dimsA dimsB ca cb perm) out a b = .ok out' ∧
      out'.length = (outShape dimsA dimsB ca cb perm).prod ∧
      ∀ K, Arr.Idx (outShape dimsA dimsB ca cb perm) K →
        entry (outShape dimsA dimsB ca cb perm) out' K =
          tensorDot dimsA dimsB ca cb perm (entry dimsA a) (entry dimsB b) K := by
  have hka := length_gatherKept dimsA ca
  have hkb := length_gatherKept dimsB cb
  have hA := h.lenA
  have hB := h.lenB
  have key : ∀ F, Arr.Idx (gatherKept dimsA ca ++ gatherKept dimsB cb ++ gather dimsA ca) F → ∃ f g c,
      F = f ++ g ++ c ∧ Arr.Idx (gatherKept dimsA ca) f ∧ Arr.Idx (gatherKept dimsB cb) g ∧
      Arr.Idx (gather dimsA ca) c := by
    intro F hF
    obtain ⟨fg, c, rfl, h1, h2⟩ := idx_append hF
    obtain ⟨f, g, rfl, h3, h4⟩ := idx_append h1
    exact ⟨f, g, c, rfl, h3, h4, h2⟩
  have pos : ∀ f g c, Arr.Idx (gatherKept dimsA ca) f → Arr.Idx (gatherKept dimsB cb) g →
      Arr.Idx (gather dimsA ca) c →
      position (mk dimsA dimsB ca cb perm).loops.idxA (mk dimsA dimsB ca cb perm).strA (f ++ g ++ c) =
        ravel dimsA (place (ints (kept dimsA.length ca) ++ ca) (f ++ c)) ∧
      position (mk dimsA dimsB ca cb perm).loops.idxB (mk dimsA dimsB ca cb perm).strB (f ++ g ++ c) =
        ravel dimsB (place (ints (kept dimsB.length cb) ++ cb) (g ++ c)) ∧
      position (mk dimsA dimsB ca cb perm).loops.idxOut (mk dimsA dimsB ca cb perm).strOut (f ++ g ++ c) =
        ravel (outShape dimsA dimsB ca cb perm) (place perm (f ++ g)) := by
    intro f g c hf hg hc
    have lf := idx_length hf
    have lg := idx_length hg
    have lc := idx_length hc
    rw [hka] at lf
    rw [hkb] at lg
    rw [length_gather] at lc
    have e3 := map_rangeFrom_append (f ++ g) c
    rw [List.length_append, lf, lg, lc] at e3
    refine ⟨?_, ?_, ?_⟩
    · apply position_place h.permA
      · rw [List.length_append, length_rangeFrom, List.length_range]; omega
      · rw [List.map_append, e3]
        congr 1
        have := map_range_append f (g ++ c)
        rwa [lf, ← List.append_assoc] at this
    · apply position_place h.permB
      · rw [List.length_append, length_rangeFrom, length_rangeFrom]; omega
      · rw [List.map_append, e3]
        congr 1
        have := map_rangeFrom_mid f g c
        rwa [lf, lg] at this
    · apply position_place
      · rw [h.lenOut, h.lenP]; exact h.permP
      · rw [List.length_range, h.lenOut, h.lenP]
      · have := map_range_append (f ++ g) c
        rwa [List.length_append, lf, lg] at this
  have gA : gather dimsA (ints (kept dimsA.length ca) ++ ca) = gatherKept dimsA ca ++ gather dimsA ca := by
    rw [gather_append, gather_ints_kept]
  have gB : gather dimsB (ints (kept dimsB.length cb) ++ cb) = gatherKept dimsB cb ++ gather dimsA ca := by
    rw [gather_append, gather_ints_kept, h.dims]
  have bounds : ∀ f g c, Arr.Idx (gatherKept dimsA ca) f → Arr.Idx (gatherKept dimsB cb) g →
      Arr.Idx (gather dimsA ca) c →
      Arr.Idx dimsA (place (ints (kept dimsA.length ca) ++ ca) (f ++ c)) ∧
      Arr.Idx dimsB (place (ints (kept dimsB.length cb) ++ cb) (g ++ c)) ∧
      Arr.Idx (outShape dimsA dimsB ca cb perm) (place perm (f ++ g)) := by
    intro f g c hf hg hc
    refine ⟨?_, ?_, ?_⟩
    · have := idx_place h.permA (by rw [length_gather]; simpa [length_ints] using h.permA.length_eq)
        (gA ▸ idx_append_mk hf hc)
      rwa [place_gather h.permA rfl] at this
    · have := idx_place h.permB (by rw [length_gather]; simpa [length_ints] using h.permB.length_eq)
        (gB ▸ idx_append_mk hg hc)
      rwa [place_gather h.permB rfl] at this
    · exact idx_place h.permP' rfl (idx_append_mk hf hg)
  unfold op
  rw [if_neg (by omega)]
  obtain ⟨o0, ho0, ho1, ho2⟩ : ∃ o0, CArr.fill out 0 = .ok o0 ∧ o0.length = (outShape dimsA dimsB ca cb perm).prod ∧
      ∀ p, o0.getD p 0 = 0 := by
    have e : out = vec out.length (fun p => out.getD p 0) := (map_getD_range 0 out).symm
    rw [e, fill_vec]
    refine ⟨_, rfl, by simp [vec, ho], ?_⟩
    intro p
    by_cases hp : p < out.length <;> simp [vec, hp]
  rw [ho0]
  simp only [ok_bind]
  rw [nest_eq (n := (outShape dimsA dimsB ca cb perm).prod)
    (pos := fun F => position (mk dimsA dimsB ca cb perm).loops.idxOut (mk dimsA dimsB ca cb perm).strOut F)
    (val := fun F => a.getD (position (mk dimsA dimsB ca cb perm).loops.idxA (mk dimsA dimsB ca cb perm).strA F) 0 *
      b.getD (position (mk dimsA dimsB ca cb perm).loops.idxB (mk dimsA dimsB ca cb perm).strB F) 0) ?_ _ ho1]
  · refine ⟨_, rfl, by simp, ?_⟩
    intro K hK
    have hlt := ravel_lt_prod hK
    unfold entry
    rw [List.getD_eq_getElem?_getD, List.getElem?_map, List.getElem?_range hlt, Option.map_some, Option.getD_some, ho2,
      zero_add, tensorDot_eq h]
    show sumIdx (gatherKept dimsA ca ++ gatherKept dimsB cb ++ gather dimsA ca) _ = _
    rw [sumIdx_append, sumIdx_append]
    apply sumIdx_congr
    intro f hf
    apply sumIdx_congr
    intro g hg
    apply sumIdx_congr
    intro c hc
    obtain ⟨p1, p2, p3⟩ := pos f g c hf hg hc
    obtain ⟨_, _, b3⟩ := bounds f g c hf hg hc
    rw [p1, p2, p3]
    by_cases hh : K = place perm (f ++ g)
    · rw [if_pos (by rw [hh]), if_pos hh]
    · rw [if_neg (fun e => hh (ravel_inj b3 hK e).symm), if_neg hh]
  · intro F hF o hol
    obtain ⟨f, g, c, rfl, hf, hg, hc⟩ := key F hF
    obtain ⟨p1, p2, p3⟩ := pos f g c hf hg hc
    obtain ⟨b1, b2, b3⟩ := bounds f g c hf hg hc
    have l1 := ravel_lt_prod b1
    have l2 := ravel_lt_prod b2
    have l3 := ravel_lt_prod b3
    rw [p1, p2, p3]
    refine ⟨l3, ?_⟩
    have get : ∀ (x : CArr) (k : Nat), k < x.length → CArr.get x (k : Int) = .ok (x.getD k 0) := by
      intro x k hk
      unfold CArr.get
      simp [hk]
    rw [get a _ (by omega), get b _ (by omega), get o _ (by omega)]
    simp only [ok_bind]
    unfold CArr.put
    rw [if_neg (by omega), Int.toNat_natCast]

/-! ## Gradients -/

theorem argsort_map_inj {p : List Int} {x y : List Nat} (hx : x.length = p.length) (hy : y.length = p.length)
    (h : ((argsort p).map fun i => x.getD i 0) = (argsort p).map fun i => y.getD i 0) : x = y := by
  apply List.ext_getElem (by omega)
  intro i h1 h2
  have hm : i ∈ argsort p := (argsort_perm p).symm.subset (List.mem_range.2 (by omega))
  have := List.map_inj_left.1 h i hm
  simpa [h1, h2] using this

theorem gather_map_argsort (l : List Nat) {p q : List Int} (hq : q.length = p.length) :
    gather l ((argsort p).map fun i => q.getD i 0) = (argsort p).map fun i => (gather l q).getD i 0 := by
  unfold gather
  rw [List.map_map]
  apply List.map_congr_left
  intro i hi
  have : i < q.length := by rw [hq]; simpa using (argsort_perm p).subset hi
  simp [this]

theorem ints_map_argsort {p : List Int} {k : List Nat} (hk : k.length = p.length) :
    ints ((argsort p).map fun i => k.getD i 0) = (argsort p).map fun i => (ints k).getD i 0 := by
  unfold ints
  rw [List.map_map]
  apply List.map_congr_left
  intro i hi
  have : i < k.length := by rw [hk]; simpa using (argsort_perm p).subset hi
  simp [this]

/-- The permutation of the axes in a gradient. -/
def move (pt : List Int) (kI : List Nat) (cI cJ : List Int) : List Int :=
  ints ((argsort pt).map fun i => kI.getD i 0) ++ (argsort cJ).map fun i => cI.getD i 0

theorem move_perm {pt : List Int} {kI : List Nat} {cI cJ : List Int} (h1 : kI.length = pt.length)
    (h2 : cI.length = cJ.length) : (move pt kI cI cJ).Perm (ints kI ++ cI) := by
  unfold move
  rw [ints_map_argsort h1]
  have a : ((argsort pt).map fun i => (ints kI).getD i 0).Perm (ints kI) := by
    have := (argsort_perm pt).map (fun i => (ints kI).getD i 0)
    rwa [← h1, ← length_ints kI, map_getD_range] at this
  have b : ((argsort cJ).map fun i => cI.getD i 0).Perm cI := by
    have := (argsort_perm cJ).map (fun i => cI.getD i 0)
    rwa [← h2, map_getD_range] at this
  exact a.append b

theorem grad_contracts {n m i : Nat} {pt pd cI cJ : List Int} {kI kJ : List Nat}
    (hp : (pt ++ pd).Perm (ints (List.range n))) (hI : (ints kI ++ cI).Perm (ints (List.range i)))
    (hJ : (ints kJ ++ cJ).Perm (ints (List.range m))) (h1 : kI.length = pt.length)
    (h2 : cI.length = cJ.length) {I J K : List Nat} (lI : I.length = i) (lJ : J.length = m) (lK : K.length = n) :
    Contracts pd (ints kJ) (move pt kI cI cJ) K J I ↔
      gather K pd = gather J (ints kJ) ∧ gather K pt = gather I (ints kI) ∧ gather I cI = gather J cJ := by
  have e1 : gatherKept K pd = (argsort pt).map fun i => (gather K pt).getD i 0 := by
    rw [← gather_ints_kept, lK, kept_of_perm hp, gather_map_argsort _ rfl]
  have e2 : gatherKept J (ints kJ) = (argsort cJ).map fun i => (gather J cJ).getD i 0 := by
    rw [← gather_ints_kept, lJ, kept_of_perm (List.perm_append_comm.trans hJ), gather_map_argsort _ rfl]
  have hm : (move pt kI cI cJ).Perm (ints (List.range i)) := (move_perm h1 h2).trans hI
  have hl : (gatherKept K pd ++ gatherKept J (ints kJ)).length = i := by
    rw [e1, e2]
    have := hI.length_eq
    simp only [List.length_append, length_ints, List.length_range, List.length_map] at this ⊢
    rw [(argsort_perm pt).length_eq, (argsort_perm cJ).length_eq]
    simp only [List.length_range]
    omega
  unfold Contracts
  rw [place_iff hm lI hl]
  apply and_congr_right
  intro _
  have e3 : gather I (move pt kI cI cJ) =
      ((argsort pt).map fun i => (gather I (ints kI)).getD i 0) ++ (argsort cJ).map fun i => (gather I cI).getD i 0 := by
    unfold move
    rw [gather_append, ints_map_argsort h1, gather_map_argsort _ (by rw [length_ints, h1]), gather_map_argsort _ h2]
  rw [e3, e1, e2]
  constructor
  · intro h
    obtain ⟨x, y⟩ := List.append_inj h (by simp)
    exact ⟨(argsort_map_inj (by rw [length_gather, length_ints, h1]) (by rw [length_gather]) x).symm,
      argsort_map_inj (by rw [length_gather, h2]) (by rw [length_gather]) y⟩
  · rintro ⟨x, y⟩
    rw [x, y]

theorem contracts_iff (h : Valid dimsA dimsB ca cb perm) {I J K : List Nat} (lI : I.length = dimsA.length)
    (lJ : J.length = dimsB.length) (lK : K.length = perm.length) :
    Contracts ca cb perm I J K ↔
      gather K (perm.drop (kept dimsA.length ca).length) = gather J (ints (kept dimsB.length cb)) ∧
      gather K (perm.take (kept dimsA.length ca).length) = gather I (ints (kept dimsA.length ca)) ∧
      gather I ca = gather J cb := by
  unfold Contracts
  have hP := h.lenP
  rw [place_iff h.permP (by omega) (by rw [List.length_append, length_gatherKept, length_gatherKept, lI, lJ])]
  conv_lhs => rw [← List.take_append_drop (kept dimsA.length ca).length perm, gather_append]
  have eI : gatherKept I ca = gather I (ints (kept dimsA.length ca)) := by rw [← gather_ints_kept, lI]
  have eJ : gatherKept J cb = gather J (ints (kept dimsB.length cb)) := by rw [← gather_ints_kept, lJ]
  rw [eI, eJ]
  constructor
  · rintro ⟨x, y⟩
    obtain ⟨y, z⟩ := List.append_inj y (by rw [length_gather, length_gather, length_ints, List.length_take]; omega)
    exact ⟨z, y, x⟩
  · rintro ⟨z, y, x⟩
    exact ⟨x, by rw [y, z]⟩

theorem Valid.split (h : Valid dimsA dimsB ca cb perm) :
    (perm.take (kept dimsA.length ca).length ++ perm.drop (kept dimsA.length ca).length).Perm
      (ints (List.range perm.length)) := by
  rw [List.take_append_drop, h.lenP]; exact h.permP

theorem Valid.lenTake (h : Valid dimsA dimsB ca cb perm) :
    (kept dimsA.length ca).length = (perm.take (kept dimsA.length ca).length).length := by
  have := h.lenP
  rw [List.length_take]; omega

theorem Valid.lenDrop (h : Valid dimsA dimsB ca cb perm) :
    (kept dimsB.length cb).length = (perm.drop (kept dimsA.length ca).length).length := by
  have := h.lenP
  rw [List.length_drop]; omega

/-- A triple contributes to the gradient with respect to the first argument iff it contributes to the operation. -/
theorem contractsA (h : Valid dimsA dimsB ca cb perm) {I J K : List Nat} (lI : I.length = dimsA.length)
    (lJ : J.length = dimsB.length) (lK : K.length = perm.length) :
    Contracts (perm.drop (kept dimsA.length ca).length) (ints (kept dimsB.length cb))
      (mkGrads dimsA dimsB ca cb perm).moveA K J I ↔ Contracts ca cb perm I J K := by
  rw [contracts_iff h lI lJ lK]
  exact grad_contracts h.split h.permA h.permB h.lenTake h.len lI lJ lK

theorem contractsB (h : Valid dimsA dimsB ca cb perm) {I J K : List Nat} (lI : I.length = dimsA.length)
    (lJ : J.length = dimsB.length) (lK : K.length = perm.length) :
    Contracts (perm.take (kept dimsA.length ca).length) (ints (kept dimsA.length ca))
      (mkGrads dimsA dimsB ca cb perm).moveB K I J ↔ Contracts ca cb perm I J K := by
  rw [contracts_iff h lI lJ lK]
  refine (grad_contracts (List.perm_append_comm.trans h.split) h.permB h.permA h.lenDrop h.len.symm lJ lI lK).trans ?_
  exact ⟨fun ⟨x, y, z⟩ => ⟨y, x, z.symm⟩, fun ⟨x, y, z⟩ => ⟨y, x, z.symm⟩⟩

theorem sub_perm {n : Nat} {p q : List Int} (h : (p ++ q).Perm (ints (List.range n))) :
    (ints (kept n q) ++ q).Perm (ints (List.range n)) := by
  have hn : (p ++ q).Nodup := h.nodup_iff.2 (nodup_ints.2 List.nodup_range)
  exact kept_perm (List.nodup_append.1 hn).2.1 (fun x hx => perm_bounds h x (List.mem_append_right _ hx))

theorem grad_valid {n m i : Nat} {pt pd cI cJ : List Int} {kI kJ : List Nat}
    (hp : (pt ++ pd).Perm (ints (List.range n))) (hI : (ints kI ++ cI).Perm (ints (List.range i)))
    (hJ : (ints kJ ++ cJ).Perm (ints (List.range m))) (h1 : kI.length = pt.length)
    (h2 : cI.length = cJ.length) (h3 : kJ.length = pd.length) {K J : List Nat} (lJ : J.length = m) (lK : K.length = n)
    (hd : gather K pd = gather J (ints kJ)) : Valid K J pd (ints kJ) (move pt kI cI cJ) := by
  subst lJ lK
  have s1 := sub_perm hp
  have s2 := sub_perm (List.perm_append_comm.trans hJ)
  refine ⟨by rw [length_ints, h3], s1, s2, ?_, hd⟩
  refine (move_perm h1 h2).trans (hI.trans ?_)
  have a := s1.length_eq
  have b := s2.length_eq
  have c := hp.length_eq
  have d := hI.length_eq
  have e := hJ.length_eq
  simp only [List.length_append, length_ints, List.length_range] at a b c d e
  rw [show i = (kept K.length pd).length + (kept J.length (ints kJ)).length by omega]

/-- The shapes of an operation are related as three multi-indices that contribute to it. -/
theorem shapes (h : Valid dimsA dimsB ca cb perm) :
    Contracts ca cb perm dimsA dimsB (outShape dimsA dimsB ca cb perm) := ⟨h.dims, rfl⟩

theorem Valid.gradA (h : Valid dimsA dimsB ca cb perm) :
    Valid (outShape dimsA dimsB ca cb perm) dimsB (perm.drop (kept dimsA.length ca).length)
      (ints (kept dimsB.length cb)) (mkGrads dimsA dimsB ca cb perm).moveA :=
  grad_valid h.split h.permA h.permB h.lenTake h.len h.lenDrop rfl h.lenOut
    ((contracts_iff h rfl rfl h.lenOut).1 (shapes h)).1

theorem Valid.gradB (h : Valid dimsA dimsB ca cb perm) :
    Valid (outShape dimsA dimsB ca cb perm) dimsA (perm.take (kept dimsA.length ca).length)
      (ints (kept dimsA.length ca)) (mkGrads dimsA dimsB ca cb perm).moveB :=
  grad_valid (List.perm_append_comm.trans h.split) h.permB h.permA h.lenDrop h.len.symm h.lenTake rfl h.lenOut
    ((contracts_iff h rfl rfl h.lenOut).1 (shapes h)).2.1

theorem outShapeA (h : Valid dimsA dimsB ca cb perm) :
    outShape (outShape dimsA dimsB ca cb perm) dimsB (perm.drop (kept dimsA.length ca).length)
      (ints (kept dimsB.length cb)) (mkGrads dimsA dimsB ca cb perm).moveA = dimsA :=
  (((contractsA h rfl rfl h.lenOut).2 (shapes h)).2).symm

theorem outShapeB (h : Valid dimsA dimsB ca cb perm) :
    outShape (outShape dimsA dimsB ca cb perm) dimsA (perm.take (kept dimsA.length ca).length)
      (ints (kept dimsA.length ca)) (mkGrads dimsA dimsB ca cb perm).moveB = dimsB :=
  (((contractsB h rfl rfl h.lenOut).2 (shapes h)).2).symm

theorem prod_gather_ne {s : List Nat} {p : List Int} (h : s.prod ≠ 0) (hp : ∀ x ∈ p, 0 ≤ x ∧ x < s.length) :
    (gather s p).prod ≠ 0 := by
  intro e
  rw [List.prod_eq_zero_iff] at e
  unfold gather at e
  rw [List.mem_map] at e
  obtain ⟨x, hx, h0⟩ := e
  have hb := hp x hx
  apply h
  rw [List.prod_eq_zero_iff, ← h0]
  have hlt : x.toNat < s.length := by omega
  rw [List.getD_eq_getElem?_getD, List.getElem?_eq_getElem hlt]
  exact List.getElem_mem hlt

theorem gradA_eq (h : Valid dimsA dimsB ca cb perm) (hB : dimsB.prod ≠ 0) :
    gradA (mk dimsA dimsB ca cb perm) = some (mk (outShape dimsA dimsB ca cb perm) dimsB
      (perm.drop (kept dimsA.length ca).length) (ints (kept dimsB.length cb)) (mkGrads dimsA dimsB ca cb perm).moveA) := by
  refine init_eq h.gradA (.inr ?_) (.inl rfl)
  rw [h.gradA.dims]
  exact prod_gather_ne hB h.gradA.bB

theorem gradB_eq (h : Valid dimsA dimsB ca cb perm) (hA : dimsA.prod ≠ 0) :
    gradB (mk dimsA dimsB ca cb perm) = some (mk (outShape dimsA dimsB ca cb perm) dimsA
      (perm.take (kept dimsA.length ca).length) (ints (kept dimsA.length ca)) (mkGrads dimsA dimsB ca cb perm).moveB) := by
  refine init_eq h.gradB (.inr ?_) (.inl rfl)
  rw [h.gradB.dims]
  exact prod_gather_ne hA h.gradB.bB

/-- The contraction and its gradient with respect to the first tensor are adjoint. -/
theorem adjointA (h : Valid dimsA dimsB ca cb perm) (A B η : List Nat → ℝ) :
    (sumIdx (outShape dimsA dimsB ca cb perm) fun K => η K * tensorDot dimsA dimsB ca cb perm A B K) =
      sumIdx dimsA fun I => A I * tensorDot (outShape dimsA dimsB ca cb perm) dimsB
        (perm.drop (kept dimsA.length ca).length) (ints (kept dimsB.length cb))
        (mkGrads dimsA dimsB ca cb perm).moveA η B I := by
  unfold tensorDot
  simp only [sumIdx_eq, mul_sum]
  rw [sum_comm]
  apply sum_congr rfl
  intro I hI
  apply sum_congr rfl
  intro K hK
  apply sum_congr rfl
  intro J hJ
  have c := contractsA h (idx_length (mem_box.1 hI)) (idx_length (mem_box.1 hJ))
    ((idx_length (mem_box.1 hK)).trans h.lenOut)
  by_cases hc : Contracts ca cb perm I J K
  · rw [if_pos hc, if_pos (c.2 hc)]; ring
  · rw [if_neg hc, if_neg (fun x => hc (c.1 x))]; simp

theorem adjointB (h : Valid dimsA dimsB ca cb perm) (A B η : List Nat → ℝ) :
    (sumIdx (outShape dimsA dimsB ca cb perm) fun K => η K * tensorDot dimsA dimsB ca cb perm A B K) =
      sumIdx dimsB fun J => B J * tensorDot (outShape dimsA dimsB ca cb perm) dimsA
        (perm.take (kept dimsA.length ca).length) (ints (kept dimsA.length ca))
        (mkGrads dimsA dimsB ca cb perm).moveB η A J := by
  unfold tensorDot
  simp only [sumIdx_eq, mul_sum]
  have : ∀ K ∈ box (outShape dimsA dimsB ca cb perm), (∑ I ∈ box dimsA, ∑ J ∈ box dimsB,
      η K * if Contracts ca cb perm I J K then A I * B J else 0) = ∑ J ∈ box dimsB, ∑ I ∈ box dimsA,
      η K * if Contracts ca cb perm I J K then A I * B J else 0 := fun K _ => sum_comm
  rw [sum_congr rfl this, sum_comm]
  apply sum_congr rfl
  intro J hJ
  apply sum_congr rfl
  intro K hK
  apply sum_congr rfl
  intro I hI
  have c := contractsB h (idx_length (mem_box.1 hI)) (idx_length (mem_box.1 hJ))
    ((idx_length (mem_box.1 hK)).trans h.lenOut)
  by_cases hc : Contracts ca cb perm I J K
  · rw [if_pos hc, if_pos (c.2 hc)]; ring
  · rw [if_neg hc, if_neg (fun x => hc (c.1 x))]; simp

/-- Inner products of arrays and of tensors. -/
theorem inner_eq {s : List Nat} {x y : CArr} (hx : x.length = s.prod) (hy : y.length = s.prod) :
    (List.zipWith (· * ·) x y).sum = sumIdx s fun I => entry s x I * entry s y I := by
  have := sumIdx_ravel s (fun p => x.getD p 0 * y.getD p 0)
  unfold entry
  rw [this, ← hx]
  have hxy : x.length = y.length := by omega
  clear this hx hy
  induction x generalizing y with
  | nil => simp
  | cons a x ih =>
    cases y with
    | nil => simp at hxy
    | cons b y =>
      rw [List.zipWith_cons_cons, List.sum_cons, ih (by simpa using hxy), List.length_cons, sum_range_succ']
      simp [add_comm]

end

end Verif.TensorDot
