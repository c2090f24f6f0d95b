import Verif.Proofs.BackwardCall
import Verif.Props.EndToEndBatch

/-!
# Execution of gradient reductions with batch dimensions
-/

namespace Verif

open Finset Spec Filter Topology

theorem pos_eq (s i : List Nat) : Spec.pos s i = Verif.ravel s i := by
  induction s generalizing i with
  | nil => cases i <;> rfl
  | cons n s ih => cases i with
    | nil => rfl
    | cons k i => simp only [Spec.pos, Verif.ravel, ih]

theorem pos_append {s i : List Nat} (h : s.length = i.length) (t j : List Nat) :
    Spec.pos (s ++ t) (i ++ j) = Spec.pos s i * t.prod + Spec.pos t j := by
  induction s generalizing i with
  | nil =>
    cases i with
    | nil => simp [Spec.pos]
    | cons => simp at h
  | cons n s ih =>
    cases i with
    | nil => simp at h
    | cons k i =>
      simp only [List.cons_append, Spec.pos, ih (by simpa using h), List.prod_append]
      ring

theorem pos_getD {s i : List Nat} (h : s.length = i.length) :
    Spec.ravel s.length (fun c => s.getD c 0) (fun c => i.getD c 0) = Spec.pos s i := by
  induction s using List.reverseRecOn generalizing i with
  | nil =>
    cases i with
    | nil => rfl
    | cons => simp at h
  | append_singleton s n ih =>
    obtain rfl | ⟨i, k, rfl⟩ := List.eq_nil_or_concat i
    · simp at h
    · have hl : s.length = i.length := by simpa using h
      rw [show i.concat k = i ++ [k] from List.concat_eq_append] at *
      rw [pos_append hl, List.length_append, List.length_singleton, Spec.ravel]
      rw [Verif.ravel_congr (d' := fun c => s.getD c 0) (i' := fun c => i.getD c 0)
        (fun b hb => by simp [List.getD_eq_getElem?_getD, List.getElem?_append_left hb])
        (fun b hb => by simp [List.getD_eq_getElem?_getD, List.getElem?_append_left (hl ▸ hb)]), ih hl]
      simp [Spec.pos, List.getD_eq_getElem?_getD, hl]

theorem clip_idx {xb batch b : List Nat} (h : Broadcasts xb batch) (hb : Arr.Idx batch b) :
    Arr.Idx xb (clipB xb b) := by
  unfold Broadcasts at h
  unfold Arr.Idx at hb
  induction h generalizing b with
  | nil => cases hb; exact .nil
  | @cons x y xs ys hxy _ ih =>
    cases hb with
    | @cons k _ _ bs hk hbs =>
      refine .cons ?_ (ih hbs)
      beta_reduce
      split
      · omega
      · omega

/-- The batch of an array, in its memory. -/
theorem ravel_bcast {xb batch b T : List Nat} (h : Broadcasts xb batch) (hb : Arr.Idx batch b) :
    Spec.ravel batch.length (fun c => (xb ++ T).getD c 0)
      (bcast (fun c => (xb ++ T).getD c 0) fun c => b.getD c 0) = Spec.pos xb (clipB xb b) := by
  have h1 := h.length_eq
  have h2 := hb.length_eq
  rw [← pos_getD (clip_idx h hb).length_eq, ← h1]
  have e : ∀ c < xb.length, (xb ++ T).getD c 0 = xb.getD c 0 := fun c hc => by
    simp [List.getD_eq_getElem?_getD, List.getElem?_append_left hc]
  refine Verif.ravel_congr e fun c hc => ?_
  have hc2 : c < b.length := by omega
  simp only [bcast, e c hc, clipB]
  simp [List.getD_eq_getElem?_getD, hc, hc2]

/-- The shapes of the arrays of a call, for the variables `l`: batch dimensions that are broadcast to `batch`, then the
rows and the dimension. -/
def CallShapes (l : List (Int × Nat × Int)) (shapes : List (List Nat)) (batch : List Nat) (m n : Nat) : Prop :=
  ∀ u ∈ l, ∃ xb, Broadcasts xb batch ∧
    shapes.getD u.1.toNat [] = xb ++ tailShape u.2.2 (if u.2.2 = 1 then n else m) u.2.1

section

variable {l : List (Int × Nat × Int)} {shapes : List (List Nat)} {batch b : List Nat} {m n : Nat}
  {args : Nat → Nat → ℝ}

theorem readBatch_at (h : PlainVars l) {u : Int × Nat × Int} (hu : u ∈ l) {xb : List Nat} (hb : Arr.Idx batch b)
    (hx : Broadcasts xb batch)
    (hs : shapes.getD u.1.toNat [] = xb ++ tailShape u.2.2 (if u.2.2 = 1 then n else m) u.2.1)
    {p : Nat × Nat} (h1 : p.1 < m) (h2 : p.2 < n) (k : Nat) :
    readBatch l shapes args b p u.1 k = if k < u.2.1 then args u.1.toNat
      ((Spec.pos xb (clipB xb b) * blockRows m n u.2.2.toNat + rowAt u.2.2 p) * u.2.1 + k) else 0 := by
  simp only [readBatch, find_var h hu]
  by_cases hk : k < u.2.1
  · rw [if_pos hk, if_pos hk]
    have ht : Arr.Idx (tailShape u.2.2 (if u.2.2 = 1 then n else m) u.2.1)
        (if u.2.2 = 2 then [k] else [rowAt u.2.2 p, k]) := by
      unfold tailShape
      by_cases hc : u.2.2 = 2
      · rw [if_pos hc, if_pos hc]
        exact .cons hk .nil
      · rw [if_neg hc, if_neg hc]
        refine .cons ?_ (.cons hk .nil)
        rcases h.cat u hu with h' | h' | h' <;> simp [h', rowAt] <;> omega
    rw [at'_append hs hx hb ht]
    simp only [hs]
    rw [pos_append (clip_idx hx hb).length_eq]
    congr 1
    rcases h.cat u hu with h' | h' | h' <;> simp [h', tailShape, Spec.pos, blockRows, rowAt] <;> ring
  · rw [if_neg hk, if_neg hk]

/-- Two lists of arrays agree on a variable whose array is the same. -/
theorem readBatch_congr {l' : List (Int × Nat × Int)} {shapes' : List (List Nat)} {args' : Nat → Nat → ℝ}
    (h : PlainVars l) (h' : PlainVars l') {u : Int × Nat × Int} (hu : u ∈ l) (hu' : u ∈ l')
    (hs : shapes'.getD u.1.toNat [] = shapes.getD u.1.toNat []) (ha : args' u.1.toNat = args u.1.toNat) (p : Nat × Nat) :
    readBatch l' shapes' args' b p u.1 = readBatch l shapes args b p u.1 := by
  funext k
  simp only [readBatch, find_var h hu, find_var h' hu', hs, ha]

theorem PlainVars.mono {l' : List (Int × Nat × Int)} (h : PlainVars l) (hs : ∀ u ∈ l', u ∈ l) : PlainVars l' :=
  ⟨fun v hv => h.pos v (hs v hv), fun v hv => h.cat v (hs v hv), fun u hu v hv => h.unique u (hs u hu) v (hs v hv)⟩

/-- What a call with batch dimensions asks for: a batch dimension, a variable that is not a parameter, a variable for
each batch dimension that is not 1, and less than `2^31` rows. -/
structure CallBatch (r : Expr) (shapes : List (List Nat)) (batch : List Nat) : Prop where
  some : batch ≠ []
  axes : ∃ u ∈ r.vars, u.2.2 ≠ 2
  attained : ∀ c < batch.length, batch.getD c 0 = 1 ∨ ∃ u ∈ r.vars, (shapes.getD u.1.toNat []).getD c 0 = batch.getD c 0
  int32 : ∀ u ∈ r.vars, (shapes.getD u.1.toNat []).dropLast.prod < 2 ^ 31

theorem batchCount_list (s : List Nat) : batchCount s.length (fun c => s.getD c 0) = s.prod := by
  have : (List.range s.length).map (fun c => s.getD c 0) = s := by
    apply List.ext_getElem
    · simp
    · intro i h1 h2
      simp at h1
      simp [List.getD_eq_getElem?_getD, h1]
  rw [batchCount, this, List.prod_eq_foldl]

theorem batchCount_left {xb T : List Nat} : batchCount xb.length (fun c => (xb ++ T).getD c 0) = xb.prod := by
  rw [← batchCount_list, batchCount, batchCount]
  congr 1
  refine List.map_congr_left fun c hc => ?_
  simp [List.getD_eq_getElem?_getD, List.getElem?_append_left (List.mem_range.mp hc)]

/-- The hypotheses of C18. -/
theorem call_shapes {r : Expr} (hl : PlainVars r.vars) (hs : CallShapes r.vars shapes batch m n)
    (hc : CallBatch r shapes batch) :
    (∃ w ∈ r.inputs, w.cat < 2) ∧ 0 < batch.length ∧
    BatchShapes r.inputs (fun a => shapes.getD a []) batch.length (fun c => batch.getD c 0) m n ∧
    ∀ w ∈ r.inputs, batchCount batch.length (fun c => (shapes.getD w.ind []).getD c 0) * blockRows m n w.cat < 2 ^ 31 := by
  have hin : ∀ u ∈ r.vars, (⟨u.1.toNat, u.2.1, u.2.2.toNat⟩ : VarInfo) ∈ r.inputs := fun u hu =>
    Expr.mem_inputs.mpr ⟨u, hu, hl.cat u hu, rfl⟩
  refine ⟨?_, List.length_pos_iff.mpr hc.some, ⟨?_, ?_, ?_, ?_⟩, ?_⟩
  · obtain ⟨u, hu, h2⟩ := hc.axes
    refine ⟨_, hin u hu, ?_⟩
    rcases hl.cat u hu with h | h | h <;> simp_all
  · intro w hw
    obtain ⟨u, hu, hcat, rfl⟩ := Expr.mem_inputs.mp hw
    obtain ⟨xb, hx, hs⟩ := hs u hu
    simp only [hs, List.length_append, hx.length_eq]
    rcases hcat with h | h | h <;> simp [h, tailShape]
  · intro w hw c hc'
    obtain ⟨u, hu, hcat, rfl⟩ := Expr.mem_inputs.mp hw
    obtain ⟨xb, hx, hs⟩ := hs u hu
    have hlen := hx.length_eq
    have hcx : c < xb.length := by omega
    simp only [hs]
    have := (List.forall₂_iff_get.mp hx).2 c hcx hc'
    simp only [List.get_eq_getElem] at this
    simp only [List.getD_eq_getElem?_getD, List.getElem?_append_left hcx, List.getElem?_eq_getElem hcx,
      List.getElem?_eq_getElem hc', Option.getD_some]
    omega
  · intro w hw h2
    obtain ⟨u, hu, hcat, rfl⟩ := Expr.mem_inputs.mp hw
    obtain ⟨xb, hx, hs⟩ := hs u hu
    have hlen := hx.length_eq
    simp only [hs, ← hlen]
    rcases hcat with h | h | h <;> simp_all [tailShape, blockRows]
  · intro c hc'
    rcases hc.attained c hc' with h | ⟨u, hu, h⟩
    · exact .inl h
    · exact .inr ⟨_, hin u hu, h⟩
  · intro w hw
    obtain ⟨u, hu, hcat, rfl⟩ := Expr.mem_inputs.mp hw
    have h32 := hc.int32 u hu
    obtain ⟨xb, hx, hs⟩ := hs u hu
    have hlen := hx.length_eq
    simp only [hs, ← hlen, batchCount_left] at h32 ⊢
    rw [List.dropLast_append_of_ne_nil (by unfold tailShape; split <;> simp)] at h32
    rcases hcat with h | h | h <;> simpa [h, tailShape, blockRows] using h32

/-- The values of a formula in the batch `b`. -/
theorem call_env_batch {V : Type} {enc : ℝ → V} {dec : V → ℝ} (hdec : ∀ x, dec (enc x) = x) {r : Expr} {axis : Nat}
    (hl : PlainVars l) (hw : r.WF) (hf : r.FactFree) (hv : ∀ t ∈ r.vars, t ∈ l) (ht : axis < 2)
    (hs : CallShapes r.vars shapes batch m n) (hb : Arr.Idx batch b)
    (hd : ∀ i < m, ∀ j < n, r.Def (readBatch l shapes args b (i, j))) {M : CMath} (hM : M.Exact)
    (junk : Expr → Nat → ℝ) {i j k : Nat} (hi : i < outRows axis m n) (hj : j < redRows axis m n) (hk : k < r.dim) :
    (r.call enc dec M junk axis m n fun p q => enc (args p q)).ev (Spec.env r.inputs axis
      (batchArgs r.inputs (fun a => shapes.getD a []) batch.length m n (fun c => b.getD c 0) fun p q => enc (args p q))
      i j) k = enc (r.val (readBatch l shapes args b (pairAt axis i j)) k) := by
  have hlr : PlainVars r.vars := hl.mono hv
  have hg : GoodVars r.vars := ⟨fun v h _ => hlr.pos v h,
    fun v h => by have := hlr.cat v h; omega, fun u hu v hv' _ _ e => hlr.unique u hu v hv' e⟩
  set A : Nat → Nat → ℝ := batchArgs r.inputs (fun a => shapes.getD a []) batch.length m n (fun c => b.getD c 0) args
    with hA
  have hAe : (batchArgs r.inputs (fun a => shapes.getD a []) batch.length m n (fun c => b.getD c 0)
      fun p q => enc (args p q)) = fun p q => enc (A p q) := by
    funext p q
    unfold A batchArgs
    cases r.inputs.find? (fun v => v.ind = p) <;> rfl
  have hag : ∀ p : Nat × Nat, p.1 < m → p.2 < n → ∀ u ∈ r.vars, readEnv r.vars A p u.1 = readBatch l shapes args b p u.1 := by
    intro p h1 h2 u hu
    funext k
    obtain ⟨xb, hx, hsu⟩ := hs u hu
    rw [readEnv_at hlr hu, readBatch_at hl (hv u hu) hb hx hsu h1 h2]
    split
    · have := batchArgs_var (inputs_wf hg) (fun a => shapes.getD a []) batch.length m n (fun c => b.getD c 0) args
        (Expr.mem_inputs.mpr ⟨u, hu, hlr.cat u hu, rfl⟩) (rowAt u.2.2 p * u.2.1 + k)
      simp only at this
      rw [hA, this]
      simp only [hsu, ravel_bcast hx hb]
      congr 1
      ring
    · rfl
  obtain ⟨-, h2⟩ := call_env (enc := enc) (dec := dec) hdec (args := A) hlr hw hf (fun _ h => h) ht
    (fun i hi j hj => Expr.def_agree hf (hag (i, j) hi hj) (hd i hi j hj)) hM junk
  rw [hAe]
  have h3 := h2 i hi j hj k hk
  obtain ⟨q1, q2⟩ := pairAt_lt hi hj
  rw [Expr.val_agree hf (hag _ q1 q2)] at h3
  exact h3

/-- The output of an execution of the sum of a formula, in all the batches. -/
theorem sum_exec_batch {r : Expr} {axis : Nat} (hl : PlainVars l) (hw : r.WF) (hf : r.FactFree)
    (hv : ∀ t ∈ r.vars, t ∈ l) (ht : axis < 2) (hs : CallShapes r.vars shapes batch m n)
    (hc : CallBatch r shapes batch) (sch : SumScheme) :
    ∃ S, getScheme (sumRed (V := ℝ) r.dim) sch = some S ∧ ∀ (M : CMath), M.Exact → ∀ junk dimout rows,
      ∃ P, rangeCall (r.call id id M junk axis m n args).ev r.inputs axis args shapes m n dimout rows none = some P ∧
      ∀ out out', RExec (sumRed r.dim) S P out out' →
      (∀ b, Arr.Idx batch b → ∀ i < m, ∀ j < n, r.Def (readBatch l shapes args b (i, j))) →
      ∀ b, Arr.Idx batch b → ∀ q < outRows axis m n, ∀ k < r.dim,
        out' (Spec.pos (batch ++ [outRows axis m n, r.dim]) (b ++ [q, k])) =
          sumRow r axis m n (readBatch l shapes args b) q k := by
  have hlr : PlainVars r.vars := hl.mono hv
  have hg : GoodVars r.vars := ⟨fun v h _ => hlr.pos v h,
    fun v h => by have := hlr.cat v h; omega, fun u hu v hv' _ _ e => hlr.unique u hu v hv' e⟩
  obtain ⟨S, hS, hsum⟩ := C18_sum_partial ℝ r.dim sch
  refine ⟨S, hS, fun M hM junk dimout rows => ?_⟩
  have hwf : WfProblem (r.call id id M junk axis m n args) := call_wf hg ht
  obtain ⟨c1, c2, c3, c4⟩ := call_shapes hlr hs hc
  obtain ⟨P, hP, h1⟩ := hsum (r.call id id M junk axis m n args).ev r.inputs axis args shapes batch.length
    (fun c => batch.getD c 0) m n dimout rows hwf.vars hwf.tag hwf.ev c1 c2 c3 c4
  refine ⟨P, hP, fun out out' he hd b hb q hq k hk => ?_⟩
  have hbl := hb.length_eq
  have := h1 out out' he (fun c => b.getD c 0) (fun c hc => by
    have := (List.forall₂_iff_get.mp hb).2 c hc (by omega)
    have hc' : c < b.length := by omega
    simpa [List.getD_eq_getElem?_getD, hc, hc'] using this) q hq k hk
  rw [pos_getD hbl] at this
  rw [pos_append hbl]
  have e : Spec.pos batch b * [outRows axis m n, r.dim].prod + Spec.pos [outRows axis m n, r.dim] [q, k] =
      (Spec.pos batch b * outRows axis m n + q) * r.dim + k := by
    simp [Spec.pos]
    ring
  rw [e, this]
  refine sum_congr rfl fun j hj => ?_
  exact call_env_batch (enc := id) (dec := id) (fun _ => rfl) hl hw hf hv ht hs hb (hd b hb) hM junk hq
    (mem_range.mp hj) hk

/-- Values of the variables when one array is replaced. -/
theorem readBatch_point (hl : PlainVars l) {v : VarId} (hv : (v.ind, v.dim, v.cat) ∈ l) {args' : Nat → Nat → ℝ}
    (ho : ∀ q, q ≠ v.ind.toNat → args' q = args q) (p : Nat × Nat) :
    readBatch l shapes args' b p = point (readBatch l shapes args b) v (Spec.rowsOf
      ⟨shapes.getD v.ind.toNat [], fun idx => args' v.ind.toNat (Spec.pos (shapes.getD v.ind.toNat []) idx)⟩ v b) p := by
  funext w k
  by_cases hw : w = v.ind
  · subst hw
    simp only [readBatch, find_var hl hv, point, setVar, Function.update_self]
    split <;> rfl
  · rw [point_other _ _ _ _ hw]
    unfold readBatch
    split
    · rename_i u hu
      have h1 : u.1 = w := by simpa using List.find?_some hu
      have hm := List.mem_of_find?_eq_some hu
      have h2 : u.1.toNat ≠ v.ind.toNat := by
        have := hl.pos u hm
        have := hl.pos _ hv
        simp only at this
        omega
      rw [ho _ h2]
    · rfl

theorem self_broadcast {xb : List Nat} (h : Broadcasts xb batch) : Broadcasts batch batch := by
  unfold Broadcasts at h ⊢
  induction h with
  | nil => exact .nil
  | cons h _ ih => exact .cons ⟨h.1, .inl rfl⟩ ih

theorem idx_zero {xb : List Nat} (h : Broadcasts xb batch) : Arr.Idx batch (batch.map fun _ => 0) := by
  unfold Broadcasts at h
  induction h with
  | nil => exact .nil
  | cons h _ ih => exact .cons h.1 ih

theorem clip_self (h : Arr.Idx batch b) : clipB batch b = b := by
  unfold Arr.Idx at h
  induction h with
  | nil => rfl
  | @cons x y xs ys hxy _ ih =>
    have : (if x = 1 then 0 else y) = y := by split <;> omega
    simp only [clipB, List.zipWith_cons_cons, this]
    congr 1

theorem idx_eventually {F : Filter ℝ} {s : List Nat} {P : List Nat → ℝ → Prop}
    (h : ∀ b, Arr.Idx s b → ∀ᶠ τ in F, P b τ) : ∀ᶠ τ in F, ∀ b, Arr.Idx s b → P b τ := by
  induction s generalizing P with
  | nil =>
    filter_upwards [h [] .nil] with τ hτ b hb
    cases hb
    exact hτ
  | cons n s ih =>
    have : ∀ᶠ τ in F, ∀ k ∈ range n, ∀ b, Arr.Idx s b → P (k :: b) τ :=
      (eventually_all_finset _).mpr fun k hk => ih fun b hb => h (k :: b) (.cons (mem_range.mp hk) hb)
    filter_upwards [this] with τ hτ b hb
    cases hb with
    | cons hk hb => exact hτ _ (mem_range.mpr hk) _ hb

/-- The values of the variables depend on the arrays by differentiable functions. -/
theorem moved_deriv_batch (p : Nat × Nat) (q : Nat) (δ : Nat → ℝ) :
    ∃ L : Int → Nat → (ℝ →L[ℝ] ℝ), ∀ i k,
      HasFDerivAt (fun τ => readBatch l shapes (moved args q δ τ) b p i k) (L i k) 0 := by
  have : ∀ i k, ∃ L : ℝ →L[ℝ] ℝ, HasFDerivAt (fun τ => readBatch l shapes (moved args q δ τ) b p i k) L 0 := by
    intro i k
    have hd : DifferentiableAt ℝ (fun τ => readBatch l shapes (moved args q δ τ) b p i k) 0 := by
      unfold readBatch moved Arr.at'
      split
      · split
        · simp only
          split
          · exact (differentiableAt_const _).add (differentiableAt_id.mul_const _)
          · exact differentiableAt_const _
        · exact differentiableAt_const _
      · exact differentiableAt_const _
    exact ⟨_, hd.hasFDerivAt⟩
  choose L hL using this
  exact ⟨L, hL⟩

/-- Near the arrays where a formula is differentiable in all the batches, it is defined. -/
theorem moved_near_batch {e : Expr} (hw : e.WF) (hf : e.FactFree) (q : Nat) (δ : Nat → ℝ)
    (hs : ∀ b, Arr.Idx batch b → ∀ i < m, ∀ j < n, e.Smooth (readBatch l shapes args b (i, j))) :
    ∀ᶠ τ in 𝓝 (0 : ℝ), ∀ b, Arr.Idx batch b → ∀ i < m, ∀ j < n,
      e.Def (readBatch l shapes (moved args q δ τ) b (i, j)) := by
  have h0 : moved args q δ 0 = args := by funext a k; simp [moved]
  refine idx_eventually fun b hb => ?_
  have : ∀ᶠ τ in 𝓝 (0 : ℝ), ∀ i ∈ range m, ∀ j ∈ range n,
      e.Def (readBatch l shapes (moved args q δ τ) b (i, j)) := by
    refine (eventually_all_finset _).mpr fun i hi => (eventually_all_finset _).mpr fun j hj => ?_
    obtain ⟨L, hL⟩ := moved_deriv_batch (l := l) (shapes := shapes) (b := b) (args := args) (i, j) q δ
    exact Expr.Smooth.near (x₀ := (0 : ℝ)) (F := fun τ => readBatch l shapes (moved args q δ τ) b (i, j)) hw hf hL
      (by rw [h0]; exact hs b hb i (mem_range.mp hi) j (mem_range.mp hj))
  filter_upwards [this] with τ hτ i hi j hj
  exact hτ i (mem_range.mpr hi) j (mem_range.mpr hj)

end

end Verif
