import Verif.Props.EndToEndBatch

/-!
# C52 for all reductions, with ranges and with batch dimensions

`RowOf` gathers the rows of the outputs of all the calls: without ranges, with ranges and with batch dimensions, on
all backends and schedules.  Each theorem below gives the content of such a row, for one reduction.  The chunked GPU
kernels are included: `C21_exec_partial`, `C21_ranges_exec_partial` and `C21_batch_exec_partial` turn their executions
into executions of the kernels of `RowOf`.
-/

namespace Verif

open Finset Spec

/-- `row` is a row of the output of a call that reduces the formula `e`, built from the expression `t`.  The reduction
runs over the indices `js`, in this order; `env j` are the values of the variables in the term of index `j`. -/
inductive RowOf {V : Type} (enc : ℝ → V) (dec : V → ℝ) (t : Term) (e : Expr) (R : Red V) (S : Scheme V) :
    List Nat → (Nat → Env) → Mem V → Prop
  /-- No ranges and no batch dimension: row `i` is reduced over all the indices `j`. -/
  | dense {tagI m n : Nat} {args : Nat → Nat → ℝ} {env : Nat → Nat → Env} (h : Setting t e tagI m n args env)
      {M : CMath} (hM : M.Exact) {junk : Expr → Nat → ℝ} {out out' : Mem V}
      (he : Exec R S (e.call enc dec M junk tagI m n fun p q => enc (args p q)) out out')
      {i : Nat} (hi : i < outRows tagI m n) :
      RowOf enc dec t e R S (List.range (redRows tagI m n)) (env i) (out'.shift (i * R.dim))
  /-- With ranges: row `i` of cluster `r` is reduced over the intervals of this cluster. -/
  | ranges {tagI m n : Nat} {args : Nat → Nat → ℝ} {env : Nat → Nat → Env} (h : Setting t e tagI m n args env)
      {M : CMath} (hM : M.Exact) {junk : Expr → Nat → ℝ} {shape : List (List Nat)} {dimout rows : Nat} {u : RangesArr}
      (hb : NoBatch e.inputs shape) (ha : WfAxis (u.axis tagI))
      (hle : ∀ r s, (u.axis tagI).startSlice r ≤ s → s < (u.axis tagI).endSlice r →
        (u.axis tagI).rangesY (2 * s + 1) ≤ redRows tagI m n)
      {P : RProblem V}
      (hP : rangeCall (e.call enc dec M junk tagI m n fun p q => enc (args p q)).ev e.inputs tagI
        (fun p q => enc (args p q)) shape m n dimout rows (some u) = some P)
      {out out' : Mem V} (he : RExec R S P out out')
      {r i : Nat} (hr : InCluster (u.axis tagI) r i) (hi : i < outRows tagI m n) :
      RowOf enc dec t e R S (clusterList (u.axis tagI) r) (env i) (out'.shift (i * R.dim))
  /-- With batch dimensions: row `i` of batch `idx` is reduced over all the indices `j` of the batch. -/
  | batch {tagI nb m n : Nat} {full : Nat → Nat} {shape : List (List Nat)} {args : Nat → Nat → ℝ}
      {env : (Nat → Nat) → Nat → Nat → Env} (h : BatchSetting t e tagI nb full shape m n args env)
      {M : CMath} (hM : M.Exact) {junk : Expr → Nat → ℝ} {dimout rows : Nat} {P : RProblem V}
      (hP : rangeCall (e.call enc dec M junk tagI m n fun p q => enc (args p q)).ev e.inputs tagI
        (fun p q => enc (args p q)) shape m n dimout rows none = some P)
      {out out' : Mem V} (he : RExec R S P out out')
      {idx : Nat → Nat} (hidx : ∀ b < nb, idx b < full b) {i : Nat} (hi : i < outRows tagI m n) :
      RowOf enc dec t e R S (List.range (redRows tagI m n)) (env idx i)
        (out'.shift ((ravel nb full idx * outRows tagI m n + i) * R.dim))

section

variable {V : Type} {enc : ℝ → V} {dec : V → ℝ} {t : Term} {e : Expr} {R : Red V} {S : Scheme V} {js : List Nat}
  {env : Nat → Env} {row : Mem V}

theorem RowOf.dim (h : RowOf enc dec t e R S js env row) : e.dim = t.dim ∧ 0 < t.dim := by
  have key : t.Pos → t.Inputs → Runs t e → e.dim = t.dim ∧ 0 < t.dim := fun hp hi ⟨q, e₀, h1, h2⟩ => by
    obtain ⟨hrep, -⟩ := compiled_good hp hi h1 h2
    exact ⟨hrep.dim, hrep.dim ▸ hrep.wf.pos⟩
  cases h with
  | dense h => exact key h.pos h.inputs h.runs
  | ranges h => exact key h.pos h.inputs h.runs
  | batch h => exact key h.pos h.inputs h.runs

/-- A row is the output of an accumulator of the terms. -/
theorem RowOf.correct {E : Prop} {A B G} (hL : LawfulScheme E R S A B G) (hf : FinLocal R)
    (hdec : ∀ x, dec (enc x) = x) (h : RowOf enc dec t e R S js env row) (hne : E ∨ js ≠ []) :
    ∃ (f : Nat → Mem V) (acc : Mem V), A (js.map fun j => (j, f j)) acc ∧
      (∀ j ∈ js, ∀ k < t.dim, f j k = enc (t.val (env j) k)) ∧ ∀ k < R.dim, ∀ o, row k = R.fin acc o k := by
  cases h with
  | @dense tagI m n args env h M hM junk out out' he i hi =>
    obtain ⟨hwf, -, -, hF⟩ := h.call (enc := enc) (dec := dec) hM hdec junk
    have hne' : E ∨ 0 < redRows tagI m n := hne.imp_right fun hn => Nat.pos_of_ne_zero fun h0 => hn (by rw [h0]; rfl)
    obtain ⟨h1, -⟩ := exec_correct hL hf hwf hne' he
    obtain ⟨acc, hacc, ho⟩ := h1 i hi
    exact ⟨_, acc, hacc, fun j hj k hk => hF i hi j (List.mem_range.mp hj) k hk, ho⟩
  | @ranges tagI m n args env h M hM junk shape dimout rows u hb ha hle P hP out out' he r i hr hi =>
    obtain ⟨hwf, -, -, hF⟩ := h.call (enc := enc) (dec := dec) hM hdec junk
    obtain ⟨P', hP', e1, e2, e3, e4, e5, e6, -⟩ := rangeCall_user (args := fun p q => enc (args p q)) (tagI := tagI)
      (ev := (e.call enc dec M junk tagI m n fun p q => enc (args p q)).ev) hb m n dimout rows u
    obtain rfl : P = P' := Option.some.inj (hP.symm.trans hP')
    obtain ⟨acc, hacc, ho⟩ := user_correct hL hf (by rw [e2]; exact hwf.vars) (by rw [e3]; exact hwf.tag)
      (by rw [e1, e2]; exact hwf.ev) e5 (by rw [e6]; exact ha) he (by rw [e6]; exact hr) (by rw [e6]; exact hne)
    rw [e1, e2, e3, e4, e6] at hacc
    refine ⟨_, acc, hacc, fun j hj k hk => ?_, ho⟩
    obtain ⟨s, hs, hj⟩ := List.mem_flatMap.mp hj
    rw [List.mem_range'_1] at hs hj
    have := hle r s hs.1 (by omega)
    exact hF i hi j (by omega) k hk
  | @batch tagI nb m n full shape args env h M hM junk dimout rows P hP out out' he idx hidx i hi =>
    obtain ⟨hwf, -, -, hF⟩ := h.call (enc := enc) (dec := dec) hM hdec junk
    have hne' : E ∨ 0 < redRows tagI m n := hne.imp_right fun hn => Nat.pos_of_ne_zero fun h0 => hn (by rw [h0]; rfl)
    obtain ⟨P', hP', hB⟩ := rangeCall_batch (ev := (e.call enc dec M junk tagI m n fun p q => enc (args p q)).ev)
      (args := fun p q => enc (args p q)) hwf.vars hwf.tag h.shapes h.axes h.batch dimout rows
    obtain rfl : P = P' := Option.some.inj (hP.symm.trans hP')
    obtain ⟨acc, hacc, ho⟩ := batch_correct hL hf hB hwf.vars hwf.tag hwf.ev h.batch h.shapes h.int32 hne' he hidx hi
    exact ⟨_, acc, hacc, fun j hj k hk => hF idx hidx i hi j (List.mem_range.mp hj) k hk, ho⟩

end

/-! ## Sums, minima and maxima -/

/-- **C52**, sums. -/
theorem C52_rows_sum {t : Term} {e : Expr} (sch : SumScheme) :
    ∃ S, getScheme (sumRed (V := ℝ) e.dim) sch = some S ∧ ∀ js env row, RowOf id id t e (sumRed e.dim) S js env row →
      ∀ k < t.dim, row k = (js.map fun j => t.val (env j) k).sum := by
  obtain ⟨S, B, G, hS, hL⟩ := sum_getScheme_lawful (V := ℝ) e.dim sch
  refine ⟨S, hS, fun js env row h k hk => ?_⟩
  obtain ⟨hdim, hpos⟩ := h.dim
  obtain ⟨f, acc, ha, hf, ho⟩ := h.correct hL (sumRed_finLocal _) (fun _ => rfl) (.inl trivial)
  have hk' : k < e.dim := hdim.symm ▸ hk
  have := ho k hk' row
  simp only [sumRed, vectCopy_apply, hk', if_true] at this
  rw [this, ha k hk', List.map_map]
  exact congrArg List.sum (List.map_congr_left fun j hj => hf j hj k hk)

/-- **C52**, minima over at least one term. -/
theorem C52_rows_min {t : Term} {e : Expr} :
    ∃ S, getScheme (minRed (V := EReal) e.dim) .direct = some S ∧ ∀ js env row,
      RowOf Real.toEReal EReal.toReal t e (minRed e.dim) S js env row → js ≠ [] → ∀ k < t.dim,
        (∀ j ∈ js, row k ≤ (t.val (env j) k : EReal)) ∧ ∃ j ∈ js, row k = (t.val (env j) k : EReal) := by
  refine ⟨_, rfl, fun js env row h hne k hk => ?_⟩
  obtain ⟨hdim, hpos⟩ := h.dim
  obtain ⟨f, acc, ha, hf, ho⟩ := h.correct (directScheme_lawful (minRed_lawful _)) (minRed_finLocal _)
    EReal.toReal_coe (.inl trivial)
  have hk' : k < e.dim := hdim.symm ▸ hk
  have e1 := ho k hk' row
  simp only [minRed, vectCopy_apply, hk', if_true] at e1
  obtain ⟨g1, g2⟩ := ha k hk'
  rw [List.map_map] at g1 g2
  have low : ∀ j ∈ js, acc k ≤ (t.val (env j) k : EReal) := fun j hj => by
    rw [← hf j hj k hk]
    exact g1 _ (List.mem_map.mpr ⟨j, hj, rfl⟩)
  rw [e1]
  refine ⟨low, ?_⟩
  rcases g2 with g2 | g2
  · obtain ⟨j, hj⟩ := List.exists_mem_of_ne_nil js hne
    have := low j hj
    rw [g2] at this
    exact absurd this (not_le.mpr (EReal.coe_lt_top _))
  · obtain ⟨j, hj, hx⟩ := List.mem_map.mp g2
    exact ⟨j, hj, by rw [← hf j hj k hk]; exact hx.symm⟩

/-- **C52**, maxima over at least one term. -/
theorem C52_rows_max {t : Term} {e : Expr} :
    ∃ S, getScheme (maxRed (V := EReal) e.dim) .direct = some S ∧ ∀ js env row,
      RowOf Real.toEReal EReal.toReal t e (maxRed e.dim) S js env row → js ≠ [] → ∀ k < t.dim,
        (∀ j ∈ js, (t.val (env j) k : EReal) ≤ row k) ∧ ∃ j ∈ js, row k = (t.val (env j) k : EReal) := by
  refine ⟨_, rfl, fun js env row h hne k hk => ?_⟩
  obtain ⟨hdim, hpos⟩ := h.dim
  obtain ⟨f, acc, ha, hf, ho⟩ := h.correct (directScheme_lawful (maxRed_lawful _)) (maxRed_finLocal _)
    EReal.toReal_coe (.inl trivial)
  have hk' : k < e.dim := hdim.symm ▸ hk
  have e1 := ho k hk' row
  simp only [maxRed, vectCopy_apply, hk', if_true] at e1
  obtain ⟨g1, g2⟩ := ha k hk'
  rw [List.map_map] at g1 g2
  have low : ∀ j ∈ js, (t.val (env j) k : EReal) ≤ acc k := fun j hj => by
    rw [← hf j hj k hk]
    exact g1 _ (List.mem_map.mpr ⟨j, hj, rfl⟩)
  rw [e1]
  refine ⟨low, ?_⟩
  rcases g2 with g2 | g2
  · obtain ⟨j, hj⟩ := List.exists_mem_of_ne_nil js hne
    have := low j hj
    rw [g2] at this
    exact absurd this (not_le.mpr (EReal.bot_lt_coe _))
  · obtain ⟨j, hj, hx⟩ := List.mem_map.mp g2
    exact ⟨j, hj, by rw [← hf j hj k hk]; exact hx.symm⟩

/-! ## Indices of minima and maxima -/

/-- `j` is the first element of `js` at which `f` is smallest. -/
def FirstLeast (js : List Nat) (f : Nat → ℝ) (j : Nat) : Prop :=
  ∃ pre post, js = pre ++ j :: post ∧ (∀ l ∈ pre, f j < f l) ∧ ∀ l ∈ post, f j ≤ f l

/-- `j` is the first element of `js` at which `f` is largest. -/
def FirstGreatest (js : List Nat) (f : Nat → ℝ) (j : Nat) : Prop :=
  ∃ pre post, js = pre ++ j :: post ∧ (∀ l ∈ pre, f l < f j) ∧ ∀ l ∈ post, f l ≤ f j

theorem firstMin_list {cast : Nat → EReal} {js : List Nat} (hne : js ≠ []) {f : Nat → Mem EReal} {g : Nat → ℝ} {k : Nat}
    (hf : ∀ j ∈ js, f j k = (g j : EReal)) {v i : EReal}
    (h : FirstMin cast ((js.map fun j => (j, f j)).map fun x => (x.1, x.2 k)) v i) :
    ∃ j, FirstLeast js g j ∧ v = (g j : EReal) ∧ i = cast j := by
  have hm : (js.map fun j => (j, f j)).map (fun x => (x.1, x.2 k)) = js.map fun j => (j, (g j : EReal)) := by
    rw [List.map_map]
    exact List.map_congr_left fun j hj => by simp only [Function.comp, hf j hj]
  rw [hm] at h
  rcases h with ⟨-, -, hall⟩ | ⟨-, pre, j, post, hsplit, hpre, hpost, hi⟩
  · obtain ⟨j, hj⟩ := List.exists_mem_of_ne_nil js hne
    exact absurd (hall (j, (g j : EReal)) (List.mem_map.mpr ⟨j, hj, rfl⟩)) (EReal.coe_ne_top _)
  · obtain ⟨pre', rest, hjs, rfl, hrest⟩ := List.map_eq_append_iff.mp hsplit
    obtain ⟨j', post', rfl, hj', rfl⟩ := List.map_eq_cons_iff.mp hrest
    simp only [Prod.mk.injEq] at hj'
    obtain ⟨rfl, rfl⟩ := hj'
    refine ⟨j', ⟨pre', post', hjs, fun l hl => ?_, fun l hl => ?_⟩, rfl, hi⟩
    · exact EReal.coe_lt_coe_iff.mp (hpre (l, (g l : EReal)) (List.mem_map.mpr ⟨l, hl, rfl⟩))
    · exact EReal.coe_le_coe_iff.mp (hpost (l, (g l : EReal)) (List.mem_map.mpr ⟨l, hl, rfl⟩))

theorem firstMax_list {cast : Nat → EReal} {js : List Nat} (hne : js ≠ []) {f : Nat → Mem EReal} {g : Nat → ℝ} {k : Nat}
    (hf : ∀ j ∈ js, f j k = (g j : EReal)) {v i : EReal}
    (h : FirstMax cast ((js.map fun j => (j, f j)).map fun x => (x.1, x.2 k)) v i) :
    ∃ j, FirstGreatest js g j ∧ v = (g j : EReal) ∧ i = cast j := by
  have hm : (js.map fun j => (j, f j)).map (fun x => (x.1, x.2 k)) = js.map fun j => (j, (g j : EReal)) := by
    rw [List.map_map]
    exact List.map_congr_left fun j hj => by simp only [Function.comp, hf j hj]
  rw [hm] at h
  rcases h with ⟨-, -, hall⟩ | ⟨-, pre, j, post, hsplit, hpre, hpost, hi⟩
  · obtain ⟨j, hj⟩ := List.exists_mem_of_ne_nil js hne
    exact absurd (hall (j, (g j : EReal)) (List.mem_map.mpr ⟨j, hj, rfl⟩)) (EReal.coe_ne_bot _)
  · obtain ⟨pre', rest, hjs, rfl, hrest⟩ := List.map_eq_append_iff.mp hsplit
    obtain ⟨j', post', rfl, hj', rfl⟩ := List.map_eq_cons_iff.mp hrest
    simp only [Prod.mk.injEq] at hj'
    obtain ⟨rfl, rfl⟩ := hj'
    refine ⟨j', ⟨pre', post', hjs, fun l hl => ?_, fun l hl => ?_⟩, rfl, hi⟩
    · exact EReal.coe_lt_coe_iff.mp (hpre (l, (g l : EReal)) (List.mem_map.mpr ⟨l, hl, rfl⟩))
    · exact EReal.coe_le_coe_iff.mp (hpost (l, (g l : EReal)) (List.mem_map.mpr ⟨l, hl, rfl⟩))

/-- **C52**, indices of minima. -/
theorem C52_rows_argmin {t : Term} {e : Expr} (cast : Nat → EReal) :
    ∃ S, getScheme (argMinRed cast e.dim) .direct = some S ∧ ∀ js env row,
      RowOf Real.toEReal EReal.toReal t e (argMinRed cast e.dim) S js env row → js ≠ [] → ∀ k < t.dim,
        ∃ j, FirstLeast js (fun l => t.val (env l) k) j ∧ row k = cast j := by
  refine ⟨_, rfl, fun js env row h hne k hk => ?_⟩
  obtain ⟨hdim, hpos⟩ := h.dim
  obtain ⟨f, acc, ha, hf, ho⟩ := h.correct
    (directScheme_lawful (minArg_lawful_aux cast e.dim (argMinRed cast e.dim) rfl rfl rfl))
    (argMinRed_finLocal cast _) EReal.toReal_coe (.inl trivial)
  have hk' : k < e.dim := hdim.symm ▸ hk
  have e1 := ho k hk' row
  simp only [argMinRed, vectCopy_apply, hk', if_true] at e1
  obtain ⟨j, hj, -, hi⟩ := firstMin_list hne (fun j hj => hf j hj k hk) (ha k hk')
  exact ⟨j, hj, e1.trans hi⟩

/-- **C52**, indices of maxima. -/
theorem C52_rows_argmax {t : Term} {e : Expr} (cast : Nat → EReal) :
    ∃ S, getScheme (argMaxRed cast e.dim) .direct = some S ∧ ∀ js env row,
      RowOf Real.toEReal EReal.toReal t e (argMaxRed cast e.dim) S js env row → js ≠ [] → ∀ k < t.dim,
        ∃ j, FirstGreatest js (fun l => t.val (env l) k) j ∧ row k = cast j := by
  refine ⟨_, rfl, fun js env row h hne k hk => ?_⟩
  obtain ⟨hdim, hpos⟩ := h.dim
  obtain ⟨f, acc, ha, hf, ho⟩ := h.correct
    (directScheme_lawful (maxArg_lawful_aux cast e.dim (argMaxRed cast e.dim) rfl rfl rfl))
    (argMaxRed_finLocal cast _) EReal.toReal_coe (.inl trivial)
  have hk' : k < e.dim := hdim.symm ▸ hk
  have e1 := ho k hk' row
  simp only [argMaxRed, vectCopy_apply, hk', if_true] at e1
  obtain ⟨j, hj, -, hi⟩ := firstMax_list hne (fun j hj => hf j hj k hk) (ha k hk')
  exact ⟨j, hj, e1.trans hi⟩

/-- **C52**, minima with their indices. -/
theorem C52_rows_min_argmin {t : Term} {e : Expr} (cast : Nat → EReal) :
    ∃ S, getScheme (minArgMinRed cast e.dim) .direct = some S ∧ ∀ js env row,
      RowOf Real.toEReal EReal.toReal t e (minArgMinRed cast e.dim) S js env row → js ≠ [] → ∀ k < t.dim,
        ∃ j, FirstLeast js (fun l => t.val (env l) k) j ∧ row k = (t.val (env j) k : EReal) ∧
          row (t.dim + k) = cast j := by
  refine ⟨_, rfl, fun js env row h hne k hk => ?_⟩
  obtain ⟨hdim, hpos⟩ := h.dim
  obtain ⟨f, acc, ha, hf, ho⟩ := h.correct
    (directScheme_lawful (minArg_lawful_aux cast e.dim (minArgMinRed cast e.dim) rfl rfl rfl))
    (minArgMinRed_finLocal cast _) EReal.toReal_coe (.inl trivial)
  have hk' : k < e.dim := hdim.symm ▸ hk
  obtain ⟨j, hj, hv, hi⟩ := firstMin_list hne (fun j hj => hf j hj k hk) (ha k hk')
  have e1 := ho k (show k < 2 * e.dim by omega) row
  have e2 := ho (e.dim + k) (show e.dim + k < 2 * e.dim by omega) row
  simp only [minArgMinRed, vectCopy_apply, show k < 2 * e.dim by omega, show e.dim + k < 2 * e.dim by omega,
    if_true] at e1 e2
  exact ⟨j, hj, e1.trans hv, by rw [← hdim]; exact e2.trans hi⟩

/-- **C52**, maxima with their indices. -/
theorem C52_rows_max_argmax {t : Term} {e : Expr} (cast : Nat → EReal) :
    ∃ S, getScheme (maxArgMaxRed cast e.dim) .direct = some S ∧ ∀ js env row,
      RowOf Real.toEReal EReal.toReal t e (maxArgMaxRed cast e.dim) S js env row → js ≠ [] → ∀ k < t.dim,
        ∃ j, FirstGreatest js (fun l => t.val (env l) k) j ∧ row k = (t.val (env j) k : EReal) ∧
          row (t.dim + k) = cast j := by
  refine ⟨_, rfl, fun js env row h hne k hk => ?_⟩
  obtain ⟨hdim, hpos⟩ := h.dim
  obtain ⟨f, acc, ha, hf, ho⟩ := h.correct
    (directScheme_lawful (maxArg_lawful_aux cast e.dim (maxArgMaxRed cast e.dim) rfl rfl rfl))
    (maxArgMaxRed_finLocal cast _) EReal.toReal_coe (.inl trivial)
  have hk' : k < e.dim := hdim.symm ▸ hk
  obtain ⟨j, hj, hv, hi⟩ := firstMax_list hne (fun j hj => hf j hj k hk) (ha k hk')
  have e1 := ho k (show k < 2 * e.dim by omega) row
  have e2 := ho (e.dim + k) (show e.dim + k < 2 * e.dim by omega) row
  simp only [maxArgMaxRed, vectCopy_apply, show k < 2 * e.dim by omega, show e.dim + k < 2 * e.dim by omega,
    if_true] at e1 e2
  exact ⟨j, hj, e1.trans hv, by rw [← hdim]; exact e2.trans hi⟩

/-! ## The K smallest values -/

/-- `σ` lists the indices `js` by increasing value of `f` and, for equal values, by increasing index. -/
def SortedBy (js : List Nat) (f : Nat → ℝ) (σ : List Nat) : Prop :=
  σ.Perm js ∧ σ.Pairwise fun a b => f a < f b ∨ (f a = f b ∧ a < b)

theorem kview_list {cast : Nat → EReal} {fd K k : Nat} {js : List Nat} (hjs : js.Pairwise (· < ·)) {f : Nat → Mem EReal}
    {g : Nat → ℝ} (hf : ∀ j ∈ js, f j k = (g j : EReal)) {acc : Mem EReal}
    (h : KMinAcc cast fd K (js.map fun j => (j, f j)) acc) (hk : k < fd) :
    ∃ σ, SortedBy js g σ ∧ ∀ l < K, cell fd k acc l =
      if hl : l < σ.length then ((g σ[l] : EReal), cast σ[l]) else (⊤, cast 0) := by
  have hv := h k hk
  have hm : (js.map fun j => (j, f j)).map (fun x => (x.2 k, x.1)) = js.map fun j => ((g j : EReal), j) := by
    rw [List.map_map]
    exact List.map_congr_left fun j hj => by simp only [Function.comp, hf j hj]
  rw [hm] at hv
  obtain ⟨s, post, he, hperm, hlex⟩ := insAll_eq K (js.map fun j => ((g j : EReal), j)) (by
    rw [List.pairwise_map]
    exact hjs)
  have hfil : (js.map fun j => ((g j : EReal), j)).filter (fun x => x.1 < ⊤) = js.map fun j => ((g j : EReal), j) := by
    rw [List.filter_eq_self]
    intro x hx
    obtain ⟨j, -, rfl⟩ := List.mem_map.mp hx
    simp
  rw [hfil] at hperm
  have hs : s = (s.map Prod.snd).map fun j => ((g j : EReal), j) := by
    rw [List.map_map]
    refine (List.map_id s).symm.trans (List.map_congr_left fun x hx => ?_)
    obtain ⟨j, -, rfl⟩ := List.mem_map.mp (hperm.mem_iff.mp hx)
    rfl
  generalize s.map Prod.snd = σ at hs
  subst hs
  refine ⟨σ, ⟨?_, ?_⟩, fun l hl => ?_⟩
  · have := hperm.map Prod.snd
    simpa [List.map_map, Function.comp_def] using this
  · unfold LexSrt at hlex
    rw [List.pairwise_map] at hlex
    exact hlex.imp fun {a b} hab => by
      simpa only [EReal.coe_lt_coe_iff, EReal.coe_eq_coe_iff] using hab
  · have e1 : (kview fd K k acc)[l]? = some (cell fd k acc l) := by
      simp [kview, hl]
    rw [hv] at e1
    rw [List.getElem?_map, topK, List.getElem?_take, if_pos hl, he, List.append_assoc] at e1
    by_cases hl' : l < σ.length
    · rw [List.getElem?_append_left (by simpa using hl'), List.getElem?_map, List.getElem?_eq_getElem hl'] at e1
      simp only [Option.map_some, Option.some.injEq, Prod.map, id] at e1
      rw [dif_pos hl', ← e1]
    · rw [List.getElem?_append_right (by simp; omega), List.getElem?_append_left (by simp; omega),
        List.getElem?_eq_getElem (by simp; omega)] at e1
      simp only [List.getElem_replicate, Option.map_some, Option.some.injEq, Prod.map, id] at e1
      rw [dif_neg hl', ← e1]

/-- **C52**, the `K` smallest values with their indices; past the number of terms, infinity and index 0.  With ranges,
the intervals of a cluster are disjoint and listed in increasing order. -/
theorem C52_rows_kmin_argkmin {t : Term} {e : Expr} (cast : Nat → EReal) (K : Nat) (sch : SumScheme)
    (hsch : sch ≠ .kahan) :
    ∃ S, getScheme (kminArgKminRed cast e.dim K) sch = some S ∧ ∀ js env row,
      RowOf Real.toEReal EReal.toReal t e (kminArgKminRed cast e.dim K) S js env row → js.Pairwise (· < ·) →
      ∀ k < t.dim, ∃ σ, SortedBy js (fun l => t.val (env l) k) σ ∧ ∀ l < K,
        (∀ hl : l < σ.length, row (k + l * (2 * t.dim)) = (t.val (env σ[l]) k : EReal) ∧
          row (k + l * (2 * t.dim) + t.dim) = cast σ[l]) ∧
        (σ.length ≤ l → row (k + l * (2 * t.dim)) = ⊤ ∧ row (k + l * (2 * t.dim) + t.dim) = cast 0) := by
  have hex : ∃ S B G, getScheme (kminArgKminRed cast e.dim K) sch = some S ∧
      LawfulScheme True (kminArgKminRed cast e.dim K) S (KMinAcc cast e.dim K) B G := by
    cases sch with
    | direct => exact ⟨_, _, _, rfl, directScheme_lawful (kminArgKminRed_lawful cast e.dim K)⟩
    | block => exact ⟨_, _, _, rfl, blockScheme_lawful (kminArgKminRed_lawful cast e.dim K) rfl⟩
    | kahan => exact absurd rfl hsch
  obtain ⟨S, B, G, hS, hL⟩ := hex
  refine ⟨S, hS, fun js env row h hjs k hk => ?_⟩
  obtain ⟨hdim, hpos⟩ := h.dim
  obtain ⟨f, acc, ha, hf, ho⟩ := h.correct hL (kminArgKminRed_finLocal cast _ K) EReal.toReal_coe
    (.inl trivial)
  rw [hdim] at ha ho
  obtain ⟨σ, hσ, hc⟩ := kview_list hjs (fun j hj => hf j hj k hk) ha hk
  refine ⟨σ, hσ, fun l hl => ?_⟩
  have hb : k + l * (2 * t.dim) + t.dim < 2 * K * t.dim := by
    have h1 : (l + 1) * (2 * t.dim) ≤ K * (2 * t.dim) := Nat.mul_le_mul_right _ hl
    rw [Nat.succ_mul l] at h1
    have h2 : 2 * K * t.dim = K * (2 * t.dim) := by rw [Nat.mul_comm 2 K, Nat.mul_assoc]
    omega
  have o1 := ho (k + l * (2 * t.dim)) (by simp only [kminArgKminRed]; omega) row
  have o2 := ho (k + l * (2 * t.dim) + t.dim) (by simp only [kminArgKminRed]; omega) row
  simp only [kminArgKminRed, vectCopy_apply, hb, if_true,
    show k + l * (2 * t.dim) < 2 * K * t.dim by omega] at o1 o2
  have hc' := hc l hl
  simp only [cell] at hc'
  refine ⟨fun hl' => ?_, fun hl' => ?_⟩
  · rw [dif_pos hl', Prod.mk.injEq] at hc'
    exact ⟨o1.trans hc'.1, o2.trans hc'.2⟩
  · rw [dif_neg (not_lt.mpr hl'), Prod.mk.injEq] at hc'
    exact ⟨o1.trans hc'.1, o2.trans hc'.2⟩

/-- **C52**, the `K` smallest values. -/
theorem C52_rows_kmin {t : Term} {e : Expr} (cast : Nat → EReal) (K : Nat) (sch : SumScheme) (hsch : sch ≠ .kahan) :
    ∃ S, getScheme (kminRed cast e.dim K) sch = some S ∧ ∀ js env row,
      RowOf Real.toEReal EReal.toReal t e (kminRed cast e.dim K) S js env row → js.Pairwise (· < ·) →
      ∀ k < t.dim, ∃ σ, SortedBy js (fun l => t.val (env l) k) σ ∧ ∀ l < K,
        (∀ hl : l < σ.length, row (k + l * t.dim) = (t.val (env σ[l]) k : EReal)) ∧
        (σ.length ≤ l → row (k + l * t.dim) = ⊤) := by
  have hex : ∃ S B G, getScheme (kminRed cast e.dim K) sch = some S ∧
      LawfulScheme True (kminRed cast e.dim K) S (KMinAcc cast e.dim K) B G := by
    cases sch with
    | direct => exact ⟨_, _, _, rfl, directScheme_lawful (kminRed_lawful cast e.dim K)⟩
    | block => exact ⟨_, _, _, rfl, blockScheme_lawful (kminRed_lawful cast e.dim K) rfl⟩
    | kahan => exact absurd rfl hsch
  obtain ⟨S, B, G, hS, hL⟩ := hex
  refine ⟨S, hS, fun js env row h hjs k hk => ?_⟩
  obtain ⟨hdim, hpos⟩ := h.dim
  obtain ⟨f, acc, ha, hf, ho⟩ := h.correct hL (kminRed_finLocal cast (hdim ▸ hpos) K) EReal.toReal_coe
    (.inl trivial)
  rw [hdim] at ha ho
  obtain ⟨σ, hσ, hc⟩ := kview_list hjs (fun j hj => hf j hj k hk) ha hk
  refine ⟨σ, hσ, fun l hl => ?_⟩
  have hb : k + l * t.dim < K * t.dim := by
    have h1 : (l + 1) * t.dim ≤ K * t.dim := Nat.mul_le_mul_right _ hl
    rw [Nat.succ_mul l] at h1
    omega
  have o1 : row (k + l * t.dim) = kminFin t.dim K acc row (k + l * t.dim) := ho (k + l * t.dim) hb row
  rw [kminFin_cell t.dim K acc row hk hl, hc l hl] at o1
  refine ⟨fun hl' => ?_, fun hl' => ?_⟩
  · rw [dif_pos hl'] at o1
    exact o1
  · rw [dif_neg (not_lt.mpr hl')] at o1
    exact o1

/-- **C52**, the indices of the `K` smallest values. -/
theorem C52_rows_argkmin {t : Term} {e : Expr} (cast : Nat → EReal) (K : Nat) (sch : SumScheme) (hsch : sch ≠ .kahan) :
    ∃ S, getScheme (argKminRed cast e.dim K) sch = some S ∧ ∀ js env row,
      RowOf Real.toEReal EReal.toReal t e (argKminRed cast e.dim K) S js env row → js.Pairwise (· < ·) →
      ∀ k < t.dim, ∃ σ, SortedBy js (fun l => t.val (env l) k) σ ∧ ∀ l < K,
        (∀ hl : l < σ.length, row (k + l * t.dim) = cast σ[l]) ∧
        (σ.length ≤ l → row (k + l * t.dim) = cast 0) := by
  have hex : ∃ S B G, getScheme (argKminRed cast e.dim K) sch = some S ∧
      LawfulScheme True (argKminRed cast e.dim K) S (KMinAcc cast e.dim K) B G := by
    cases sch with
    | direct => exact ⟨_, _, _, rfl, directScheme_lawful (argKminRed_lawful cast e.dim K)⟩
    | block => exact ⟨_, _, _, rfl, blockScheme_lawful (argKminRed_lawful cast e.dim K) rfl⟩
    | kahan => exact absurd rfl hsch
  obtain ⟨S, B, G, hS, hL⟩ := hex
  refine ⟨S, hS, fun js env row h hjs k hk => ?_⟩
  obtain ⟨hdim, hpos⟩ := h.dim
  obtain ⟨f, acc, ha, hf, ho⟩ := h.correct hL (argKminRed_finLocal cast (hdim ▸ hpos) K) EReal.toReal_coe
    (.inl trivial)
  rw [hdim] at ha ho
  obtain ⟨σ, hσ, hc⟩ := kview_list hjs (fun j hj => hf j hj k hk) ha hk
  refine ⟨σ, hσ, fun l hl => ?_⟩
  have hb : k + l * t.dim < K * t.dim := by
    have h1 : (l + 1) * t.dim ≤ K * t.dim := Nat.mul_le_mul_right _ hl
    rw [Nat.succ_mul l] at h1
    omega
  have o1 : row (k + l * t.dim) = argKminFin t.dim K acc row (k + l * t.dim) := ho (k + l * t.dim) hb row
  rw [argKminFin_cell t.dim K acc row hk hl, hc l hl] at o1
  refine ⟨fun hl' => ?_, fun hl' => ?_⟩
  · rw [dif_pos hl'] at o1
    exact o1
  · rw [dif_neg (not_lt.mpr hl')] at o1
    exact o1

/-! ## Log-sum-exp and softmax -/

theorem listSum_unshift (js : List Nat) (f w : Nat → ℝ) (M : ℝ) :
    (js.map fun j => Real.exp (f j) * w j).sum =
      Real.exp M * (js.map fun j => Real.exp (f j - M) * w j).sum := by
  induction js with
  | nil => simp
  | cons j js ih =>
    rw [List.map_cons, List.sum_cons, List.map_cons, List.sum_cons, ih, mul_add, ← mul_assoc, ← Real.exp_add,
      add_sub_cancel]

theorem log_unshift (M s : ℝ) : XR.add (XR.fin M) (XR.log (XR.fin s)) = XR.log (XR.fin (Real.exp M * s)) := by
  have hM := Real.exp_pos M
  rcases lt_trichotomy s 0 with hs | hs | hs
  · have h1 : ¬ 0 < s := not_lt.mpr hs.le
    have h2 : ¬ 0 < Real.exp M * s := not_lt.mpr (mul_neg_of_pos_of_neg hM hs).le
    have h3 : Real.exp M * s ≠ 0 := (mul_neg_of_pos_of_neg hM hs).ne
    simp only [XR.log, h1, h2, h3, hs.ne, if_false, XR.add]
  · subst hs; simp [XR.log, XR.add]
  · have h2 : 0 < Real.exp M * s := mul_pos hM hs
    simp only [XR.log, hs, h2, if_true, XR.add]
    rw [Real.log_mul hM.ne' hs.ne', Real.log_exp]

/-- The row of a log-sum-exp: a maximum and shifted sums. -/
theorem RowOf.lse {f w : Term} {e : Expr} (hf1 : f.dim = 1) {g : ℝ → XR} {S : Scheme XR} {B G}
    (hL : LawfulScheme False (@lseRed XR (xrNum g) w.dim) S (LseAcc w.dim) B G) {js : List Nat} {env : Nat → Env}
    {row : Mem XR} (h : RowOf XR.fin XR.val (.bin .concat f w) e (@lseRed XR (xrNum g) w.dim) S js env row)
    (hne : js ≠ []) :
    ∃ M : ℝ, row 0 = XR.fin M ∧ ∀ k < w.dim, row (1 + k) =
      XR.fin (js.map fun j => Real.exp (f.val (env j) 0 - M) * w.val (env j) k).sum := by
  obtain ⟨fs, acc, ha, hf, ho⟩ := h.correct hL (lseRed_finLocal g _) (fun _ => rfl) (.inr hne)
  have hd : (Term.bin .concat f w).dim = 1 + w.dim := by simp only [Term.dim, Bin.dim, hf1]
  rw [hd] at hf
  have h0 : ∀ j ∈ js, fs j 0 = XR.fin (f.val (env j) 0) := fun j hj => by
    rw [hf j hj 0 (by omega)]
    simp only [Term.val, binVal, hf1]
    rw [cst_eq (by omega), if_pos (by omega)]
  have h1 : ∀ j ∈ js, ∀ k < w.dim, fs j (1 + k) = XR.fin (w.val (env j) k) := fun j hj k hk => by
    rw [hf j hj (1 + k) (by omega)]
    simp only [Term.val, binVal, hf1]
    rw [cst_eq (by omega), if_neg (by omega), Nat.add_sub_cancel_left]
  have hout : ∀ k < 1 + w.dim, row k = acc k := fun k hk => by
    have := ho k hk row
    simp only [lseRed, vectCopy_apply, hk, if_true] at this
    exact this
  rcases ha (fun x hx => by
    obtain ⟨j, hj, rfl⟩ := List.mem_map.mp hx
    intro k hk
    simp only [hf j hj k hk]
    rfl) with ⟨h2, -⟩ | ⟨-, M, h2, -, -, h3⟩
  · exact absurd (List.map_eq_nil_iff.mp h2) hne
  · refine ⟨M, (hout 0 (by omega)).trans h2, fun k hk => ?_⟩
    rw [hout (1 + k) (by omega), h3 k hk, List.map_map]
    congr 2
    refine List.map_congr_left fun j hj => ?_
    simp only [Function.comp, h0 j hj, h1 j hj k hk]
    rfl

/-- **C52**, log-sum-exp with weights over at least one term: `log Σ_j exp(f_j) w_j`. -/
theorem C52_rows_logsumexp {f w : Term} {e : Expr} (hf : f.dim = 1) (g : ℝ → XR) (long : XR → XR) (sch : SumScheme)
    (hsch : sch ≠ .kahan) :
    ∃ S, getScheme (@lseRed XR (xrNum g) w.dim) sch = some S ∧ ∀ js env row,
      RowOf XR.fin XR.val (.bin .concat f w) e (@lseRed XR (xrNum g) w.dim) S js env row → js ≠ [] →
      ∃ arr, postprocess (xrPost long) .logSumExp 0 (1 + w.dim) row = some [arr] ∧ arr.shape = [w.dim] ∧
        ∀ k < w.dim, arr.get k =
          XR.log (XR.fin (js.map fun j => Real.exp (f.val (env j) 0) * w.val (env j) k).sum) := by
  obtain ⟨S, B, G, hS, hL⟩ := lse_scheme g w.dim hsch
  refine ⟨S, hS, fun js env row h hne => ?_⟩
  obtain ⟨M, h0, hk⟩ := h.lse hf hL hne
  have key : ∀ k < w.dim, XR.add (row 0) (XR.log (row (1 + k))) =
      XR.log (XR.fin (js.map fun j => Real.exp (f.val (env j) 0) * w.val (env j) k).sum) := fun k hkd => by
    rw [h0, hk k hkd, listSum_unshift js (fun j => f.val (env j) 0) (fun j => w.val (env j) k) M]
    exact log_unshift M _
  by_cases hd : 1 + w.dim = 2
  · have h1 : w.dim = 1 := by omega
    rw [h1]
    refine ⟨_, rfl, rfl, fun k hkd => ?_⟩
    have : k = 0 := by omega
    subst this
    exact key 0 (by omega)
  · unfold postprocess
    rw [if_neg hd]
    refine ⟨_, rfl, ?_, fun k hkd => key k hkd⟩
    simp only [List.cons.injEq, and_true]; omega

/-- **C52**, sums weighted by a softmax, over at least one term: `Σ_j exp(f_j) w_j / Σ_j exp(f_j)`. -/
theorem C52_rows_sumsoftmaxweight {f w : Term} {e : Expr} (hf : f.dim = 1) (g : ℝ → XR) (long : XR → XR)
    (sch : SumScheme) (hsch : sch ≠ .kahan) :
    ∃ S, getScheme (@lseRed XR (xrNum g) (1 + w.dim)) sch = some S ∧ ∀ js env row,
      RowOf XR.fin XR.val (.bin .concat f (.bin .concat (.int 1) w)) e (@lseRed XR (xrNum g) (1 + w.dim)) S js env
        row → js ≠ [] →
      ∃ arr, postprocess (xrPost long) .sumSoftMaxWeight 0 (1 + (1 + w.dim)) row = some [arr] ∧
        arr.shape = [w.dim] ∧ ∀ k < w.dim, arr.get k =
          XR.fin ((js.map fun j => Real.exp (f.val (env j) 0) * w.val (env j) k).sum /
            (js.map fun j => Real.exp (f.val (env j) 0)).sum) := by
  have hd : (Term.bin .concat (.int 1) w).dim = 1 + w.dim := by simp only [Term.dim, Bin.dim]
  obtain ⟨S, B, G, hS, hL⟩ := lse_scheme g (1 + w.dim) hsch
  refine ⟨S, hS, fun js env row h hne => ?_⟩
  rw [← hd] at hL h
  obtain ⟨M, -, hk⟩ := h.lse hf hL hne
  rw [hd] at hk
  have hv0 : ∀ j, (Term.bin .concat (.int 1) w).val (env j) 0 = 1 := fun j => by
    have h1 : (Term.int 1).dim = 1 := rfl
    simp [Term.val, binVal, h1, cst]
  have hv1 : ∀ j, ∀ k < w.dim, (Term.bin .concat (.int 1) w).val (env j) (1 + k) = w.val (env j) k := fun j k hk => by
    have h1 : (Term.int 1).dim = 1 := rfl
    simp only [Term.val, binVal, h1]
    rw [cst_eq (by omega)]
    simp
  refine ⟨_, rfl, ?_, fun k hkd => ?_⟩
  · simp only [List.cons.injEq, and_true]; omega
  · have e1 := hk 0 (by omega)
    have e2 := hk (1 + k) (by omega)
    simp only [hv0, hv1 _ k hkd, mul_one] at e1 e2
    rw [Nat.add_zero] at e1
    have hden : 0 < (js.map fun j => Real.exp (f.val (env j) 0 - M)).sum := by
      refine List.sum_pos _ (fun x hx => ?_) (by simpa using hne)
      obtain ⟨j, -, rfl⟩ := List.mem_map.mp hx
      exact Real.exp_pos _
    change XR.div (row (2 + k)) (row 1) = _
    rw [show 2 + k = 1 + (1 + k) by omega, e2, e1]
    simp only [XR.div, hden.ne', if_false]
    have h1 := listSum_unshift js (fun j => f.val (env j) 0) (fun j => w.val (env j) k) M
    have h2 := listSum_unshift js (fun j => f.val (env j) 0) (fun _ => 1) M
    simp only [mul_one] at h2
    rw [h1, h2, mul_div_mul_left _ _ (Real.exp_pos M).ne']

/-! ## The hypotheses can be met -/

/-- `-|x_i - y_j|²` next to a vector `b_j`. -/
abbrev scoreB : Term :=
  .bin .concat (.un .minus (.un .sum (.un .square (.bin .sub (.var 0 3 0) (.var 1 3 1))))) (.var 2 2 1)

/-- The formula that is run for `scoreB`. -/
abbrev scoreBE : Expr :=
  .bin .concat (.un .minus (.un .sum (.un .square (.bin .sub (.var 0 3 0) (.var 1 3 1))))) (.var 2 2 1)

theorem scoreB_setting (m n : Nat) (args : Nat → Nat → ℝ) : Setting scoreB scoreBE 0 m n args (gaussEnv args) where
  pos := by simp [Term.Pos, Un.dim]
  inputs := ⟨by simp [Term.vars], by simp [Term.vars], by simp [Term.vars]⟩
  runs := ⟨20, scoreBE, by decide +kernel, .inl rfl⟩
  tag := by omega
  reads i _ j _ := by
    intro v hv k hk
    simp only [Term.vars, List.cons_append, List.nil_append, List.mem_cons, List.not_mem_nil, or_false] at hv
    rcases hv with rfl | rfl | rfl <;> simp [gaussEnv, row]
  defined i _ j _ := by simp [Term.Def, unDef, binDef]

theorem exRanges_in : InCluster (exRanges.axis 0) 1 3 :=
  ⟨by decide, by decide, fun r' hr' h1 h2 => by
    have h3 : r' < 2 := hr'
    have h4 : r' = 0 ∨ r' = 1 := by omega
    rcases h4 with rfl | rfl
    · exact absurd h2 (by decide)
    · rfl⟩

theorem exRanges_le : ∀ r s, (exRanges.axis 0).startSlice r ≤ s → s < (exRanges.axis 0).endSlice r →
    (exRanges.axis 0).rangesY (2 * s + 1) ≤ redRows 0 4 4 := by
  intro r s _ _
  change [0, 2, 1, 2, 3, 4].getD (2 * s + 1) 0 ≤ 4
  rcases s with _ | _ | _ | s
  · decide
  · decide
  · decide
  · rw [List.getD_eq_default _ _ (by simp; omega)]
    omega

/-- Block-sparse log-sum-exp with weights, 4 points `x` and 4 points `y`, ranges `exRanges`: there are executions with
the scheme `block_sum`, and row 3 is reduced over the indices 1 and 3. -/
example (g : ℝ → XR) (long : XR → XR) (args : Nat → Nat → ℝ) (out : Mem XR) :
    ∃ P, rangeCall (scoreBE.call XR.fin XR.val realMath (fun _ _ => 0) 0 4 4 fun p q => XR.fin (args p q)).ev
        scoreBE.inputs 0 (fun p q => XR.fin (args p q)) [[4, 3], [4, 3], [4, 2]] 4 4 3 4 (some exRanges) = some P ∧
      ∃ S, getScheme (@lseRed XR (xrNum g) 2) .block = some S ∧
      (∃ out', RExec (@lseRed XR (xrNum g) 2) S P out out') ∧
      ∀ out', RExec (@lseRed XR (xrNum g) 2) S P out out' → ∃ arr,
        postprocess (xrPost long) .logSumExp 0 3 (out'.shift (3 * 3)) = some [arr] ∧ ∀ k < 2,
        arr.get k = XR.log (XR.fin (([1, 3].map fun j =>
          Real.exp (-∑ c ∈ range 3, (args 0 (3 * 3 + c) - args 1 (j * 3 + c)) ^ 2) * args 2 (j * 2 + k)).sum)) := by
  have hin : scoreBE.inputs = [⟨0, 3, 0⟩, ⟨1, 3, 1⟩, ⟨2, 2, 1⟩] := by decide +kernel
  have hb : NoBatch scoreBE.inputs [[4, 3], [4, 3], [4, 2]] := by
    rw [hin]
    intro v hv _
    simp only [List.mem_cons, List.not_mem_nil, or_false] at hv
    rcases hv with rfl | rfl | rfl <;> rfl
  obtain ⟨P, hP, -⟩ := rangeCall_user (args := fun p q => XR.fin (args p q)) (tagI := 0)
    (ev := (scoreBE.call XR.fin XR.val realMath (fun _ _ => 0) 0 4 4 fun p q => XR.fin (args p q)).ev) hb 4 4 3 4
    exRanges
  obtain ⟨S, hS, h⟩ := C52_rows_logsumexp (f := .un .minus (.un .sum (.un .square (.bin .sub (.var 0 3 0) (.var 1 3 1)))))
    (w := .var 2 2 1) (e := scoreBE) rfl g long .block (by decide)
  refine ⟨P, hP, S, hS, rexec_exists_gpu _ _ _ out, fun out' he => ?_⟩
  obtain ⟨arr, h1, -, h2⟩ := h _ _ _ (.ranges (scoreB_setting 4 4 args) realMath_exact hb exRanges_wf exRanges_le hP he
    exRanges_in (by decide)) (by decide)
  refine ⟨arr, h1, fun k hk => (h2 k hk).trans ?_⟩
  rw [show clusterList (exRanges.axis 0) 1 = [1, 3] by decide]
  simp [Term.val, unVal, binVal, sqn, cst, gaussEnv, Term.dim, Bin.dim, Un.dim]

/-- The two smallest values of a formula and their indices, with batch dimensions: there are executions, and the rows
contain two values of the formula in increasing order. -/
example (m n : Nat) (hm : m < 2 ^ 28) (hn : n < 2 ^ 28) (h2 : 2 ≤ n) (args : Nat → Nat → ℝ) (cast : Nat → EReal)
    (out : Mem EReal) :
    ∃ P, rangeCall (gaussE.call Real.toEReal EReal.toReal realMath (fun _ _ => 0) 0 m n
        fun p q => (args p q : EReal)).ev gaussE.inputs 0 (fun p q => (args p q : EReal)) (gaussShapes m n) m n 8
        (6 * m) none = some P ∧
      ∃ S, getScheme (kminArgKminRed cast 2 2) .direct = some S ∧
      (∃ out', RExec (kminArgKminRed cast 2 2) S P out out') ∧
      ∀ out', RExec (kminArgKminRed cast 2 2) S P out out' → ∀ a < 3, ∀ b < 2, ∀ i < m,
        ∃ j < n, ∃ l < n, j ≠ l ∧
          gauss.val (gaussBatchEnv m n args (fun c => [a, b].getD c 0) i j) 1 ≤
            gauss.val (gaussBatchEnv m n args (fun c => [a, b].getD c 0) i l) 1 ∧
          out' (((a * 2 + b) * m + i) * 8 + 3) = cast j ∧ out' (((a * 2 + b) * m + i) * 8 + 7) = cast l := by
  have hB := gauss_batch m n hm hn args
  obtain ⟨hwf, -⟩ := hB.call (enc := Real.toEReal) (dec := EReal.toReal) realMath_exact EReal.toReal_coe
    (fun _ _ => 0)
  obtain ⟨P, hP, -⟩ := rangeCall_batch (ev := (gaussE.call Real.toEReal EReal.toReal realMath (fun _ _ => 0) 0 m n
    fun p q => (args p q : EReal)).ev) (args := fun p q => (args p q : EReal)) hwf.vars hwf.tag hB.shapes hB.axes
    hB.batch 8 (6 * m)
  obtain ⟨S, hS, h⟩ := C52_rows_kmin_argkmin (t := gauss) (e := gaussE) cast 2 .direct (by decide)
  refine ⟨P, hP, S, hS, rexec_exists_gpu _ _ _ out, fun out' he a ha b hb i hi => ?_⟩
  have hidx : ∀ c < 2, (fun c => [a, b].getD c 0) c < (fun c => [3, 2].getD c 0) c := fun c hc => by
    have : c = 0 ∨ c = 1 := by omega
    rcases this with rfl | rfl
    · exact ha
    · exact hb
  obtain ⟨σ, ⟨hperm, hsort⟩, hrow⟩ := h _ _ _ (.batch hB realMath_exact hP he hidx hi) List.pairwise_lt_range 1 (by decide)
  have hlen : σ.length = n := by rw [hperm.length_eq, List.length_range]; rfl
  have hlt : ∀ (l : Nat) (hl : l < σ.length), σ[l] < n := fun l hl =>
    List.mem_range.mp (hperm.mem_iff.mp (List.getElem_mem hl))
  have hs := List.pairwise_iff_getElem.mp hsort 0 1 (by omega) (by omega) (by omega)
  have o1 := ((hrow 0 (by omega)).1 (by omega)).2
  have o2 := ((hrow 1 (by omega)).1 (by omega)).2
  simp only [Mem.shift_apply, show gauss.dim = 2 by decide] at o1 o2
  refine ⟨σ[0], hlt 0 (by omega), σ[1], hlt 1 (by omega), ?_, ?_, ?_, ?_⟩
  · intro heq
    rcases hs with hs | hs
    · rw [heq] at hs; exact absurd hs (lt_irrefl _)
    · omega
  · rcases hs with hs | hs
    · exact hs.le
    · exact hs.1.le
  · rw [← o1]
    congr 1
    simp [ravel, outRows, kminArgKminRed]
  · rw [← o2]
    congr 1
    simp [ravel, outRows, kminArgKminRed]

end Verif
