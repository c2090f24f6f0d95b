import Verif.Props.Vmap
import Verif.Props.EndToEndRows
import Verif.Props.TransposeRed
import Verif.Proofs.VmapRed

/-!
# C48 for calls which compute other reductions than sums
-/

namespace Verif

open Spec

/-- A row of the output of the call given by `vmap`, and the same row of the output of a call of the loop: row `i` in the
batch `b` of the call number `l`.  The numbers of the arguments are given to both kernels in the type `V`; the kernels run
on any device, with the schemes `S` and `SL`, and compute the reduction `R`. -/
inductive VmapRow {V : Type} (enc : ℝ → V) (dec : V → ℝ) (e : Expr) (tagI m n : Nat) (inds : List (Option Nat))
    (arrs : List (Spec.Arr ℝ)) (B : Nat) (mem : Nat → Nat → ℝ) (memL : Nat → Nat → Nat → ℝ) (R : Red V)
    (S SL : Scheme V) : List Nat → Mem V → Mem V → Prop
  /-- The calls of the loop have no batch dimensions. -/
  | one {M ML : CMath} (hM : M.Exact) (hML : ML.Exact) {junk junkL : Expr → Nat → ℝ} {dimout rows : Nat} {P : RProblem V}
      (hP : rangeCall (e.call enc dec M junk tagI m n fun p q => enc (mem p q)).ev e.inputs tagI
        (fun p q => enc (mem p q)) (shapesOf (vmapArgs inds arrs)) m n dimout rows none = some P)
      {out₀ out : Mem V} (he : RExec R S P out₀ out) {l : Nat} (hl : l < B) {o₀ o : Mem V}
      (heL : Exec R SL (e.call enc dec ML junkL tagI m n fun p q => enc (memL l p q)) o₀ o)
      {i : Nat} (hi : i < outRows tagI m n) :
      VmapRow enc dec e tagI m n inds arrs B mem memL R S SL []
        (out.shift (Spec.pos [B, outRows tagI m n, R.dim] [l, i, 0])) (o.shift (Spec.pos [outRows tagI m n, R.dim] [i, 0]))
  /-- The calls of the loop have batch dimensions. -/
  | batch {batch : List Nat} (hne : batch ≠ []) {M ML : CMath} (hM : M.Exact) (hML : ML.Exact)
      {junk junkL : Expr → Nat → ℝ} {dimout rows dimoutL rowsL : Nat} {P PL : RProblem V}
      (hP : rangeCall (e.call enc dec M junk tagI m n fun p q => enc (mem p q)).ev e.inputs tagI
        (fun p q => enc (mem p q)) (shapesOf (vmapArgs inds arrs)) m n dimout rows none = some P)
      {out₀ out : Mem V} (he : RExec R S P out₀ out) {l : Nat} (hl : l < B)
      (hPL : rangeCall (e.call enc dec ML junkL tagI m n fun p q => enc (memL l p q)).ev e.inputs tagI
        (fun p q => enc (memL l p q)) (shapesOf (loopArgs l inds arrs)) m n dimoutL rowsL none = some PL)
      {o₀ o : Mem V} (heL : RExec R SL PL o₀ o) {b : List Nat} (hb : Arr.Idx batch b)
      {i : Nat} (hi : i < outRows tagI m n) :
      VmapRow enc dec e tagI m n inds arrs B mem memL R S SL batch
        (out.shift (Spec.pos (B :: batch ++ [outRows tagI m n, R.dim]) (l :: b ++ [i, 0])))
        (o.shift (Spec.pos (batch ++ [outRows tagI m n, R.dim]) (b ++ [i, 0])))

/-- The arguments of the calls: the arrays given by `vmap` and those of the loop are in memory, and the expression has no
value outside the domain of an operation. -/
structure VmapMem (t : Term) (sigs : List VarId) (m n : Nat) (inds : List (Option Nat)) (arrs : List (Spec.Arr ℝ)) (B : Nat)
    (batch : List Nat) (mem : Nat → Nat → ℝ) (memL : Nat → Nat → Nat → ℝ) : Prop where
  vmap : Stored mem (vmapArgs inds arrs)
  loop : ∀ l < B, Stored (memL l) (loopArgs l inds arrs)
  defined : ∀ l < B, ∀ b, Arr.Idx batch b → ∀ i < m, ∀ j < n,
    t.Def (readBatch (declared sigs) (shapesOf (loopArgs l inds arrs)) (memL l) b (i, j))

section

variable {V : Type} {enc : ℝ → V} {dec : V → ℝ} {t : Term} {e : Expr} {sigs : List VarId} {tagI m n : Nat}
  {inds : List (Option Nat)} {arrs : List (Spec.Arr ℝ)} {B : Nat} {batch : List Nat} {mem : Nat → Nat → ℝ}
  {memL : Nat → Nat → Nat → ℝ} {R : Red V} {S SL : Scheme V} {x y : Mem V}

/-- **C48**: the call given by `vmap` runs, and so do the calls of the loop with batch dimensions. -/
theorem C48_runs (h : VmapSetting t e sigs tagI m n inds arrs B batch)
    (ev : (Nat → Option (Mem V)) → Mem V) (args : Nat → Mem V) (dimout rows : Nat) :
    (∃ P, rangeCall ev e.inputs tagI args (shapesOf (vmapArgs inds arrs)) m n dimout rows none = some P) ∧
    (batch ≠ [] → ∀ l,
      ∃ P, rangeCall ev e.inputs tagI args (shapesOf (loopArgs l inds arrs)) m n dimout rows none = some P) := by
  obtain ⟨N, hc⟩ := h.compiled
  obtain ⟨hff, hvars⟩ := compile_vars h.pos hc
  have hev : ∀ u ∈ e.vars, u ∈ declared sigs := fun u hu => h.vars u (hvars u hu)
  obtain ⟨hl, -⟩ := declared_plain h.order h.sig
  have hlr : PlainVars e.vars := hl.mono hev
  have hg : GoodVars e.vars := ⟨fun v h _ => hlr.pos v h,
    fun v h => by have := hlr.cat v h; omega, fun u hu v hv' _ _ e => hlr.unique u hu v hv' e⟩
  refine ⟨?_, fun hne l => ?_⟩
  · obtain ⟨c1, c2, c3, -⟩ := call_shapes hlr (fun u hu => h.fits.vmapped h.some u (hev u hu)) h.call
    obtain ⟨P, hP, -⟩ := rangeCall_batch (ev := ev) (args := args) (inputs_wf hg) h.tag c3 c1 c2 dimout rows
    exact ⟨P, hP⟩
  · obtain ⟨c1, c2, c3, -⟩ := call_shapes hlr (fun u hu => h.fits.loop l u (hev u hu))
      (h.fits.callBatch hev h.some l h.call hne)
    obtain ⟨P, hP, -⟩ := rangeCall_batch (ev := ev) (args := args) (inputs_wf hg) h.tag c3 c1 c2 dimout rows
    exact ⟨P, hP⟩

/-- Both rows reduce the values of the expression for the same values of the variables. -/
theorem VmapRow.rows (h : VmapSetting t e sigs tagI m n inds arrs B batch)
    (hm : VmapMem t sigs m n inds arrs B batch mem memL)
    (hr : VmapRow enc dec e tagI m n inds arrs B mem memL R S SL batch x y) :
    ∃ env, RowOf enc dec t e R S (List.range (redRows tagI m n)) env x ∧
      RowOf enc dec t e R SL (List.range (redRows tagI m n)) env y := by
  obtain ⟨N, hc⟩ := h.compiled
  obtain ⟨hff, hvars⟩ := compile_vars h.pos hc
  have hev : ∀ u ∈ e.vars, u ∈ declared sigs := fun u hu => h.vars u (hvars u hu)
  obtain ⟨hl, -⟩ := declared_plain h.order h.sig
  have hrun : Runs t e := ⟨N, e, hc, .inl rfl⟩
  -- the call given by `vmap`
  have hB : BatchSetting t e tagI (B :: batch).length (fun c => (B :: batch).getD c 0) (shapesOf (vmapArgs inds arrs)) m n
      mem fun idx i j => readBatch (declared sigs) (shapesOf (vmapArgs inds arrs)) mem
        ((List.range (B :: batch).length).map idx) (pairAt tagI i j) := by
    refine hl.batchSetting h.pos hrun h.tag h.vars hev (h.fits.vmapped h.some) h.call (fun _ _ _ _ _ _ => rfl) ?_
    intro idx hidx i hi j hj
    obtain ⟨p1, p2⟩ := pairAt_lt hi hj
    have hb := idx_list hidx
    generalize (List.range (B :: batch).length).map idx = b at hb
    cases hb with
    | cons hb1 hb2 =>
      rw [vmap_read hl h.fits hb1 hm.vmap (hm.loop _ hb1) hb2 p1 p2]
      exact hm.defined _ hb1 _ hb2 _ p1 _ p2
  have hx : ∀ {M : CMath}, M.Exact → ∀ {junk dimout rows P},
      rangeCall (e.call enc dec M junk tagI m n fun p q => enc (mem p q)).ev e.inputs tagI
        (fun p q => enc (mem p q)) (shapesOf (vmapArgs inds arrs)) m n dimout rows none = some P →
      ∀ {out₀ out : Mem V}, RExec R S P out₀ out → ∀ {l b}, l < B → Arr.Idx batch b → ∀ {i}, i < outRows tagI m n →
      RowOf enc dec t e R S (List.range (redRows tagI m n))
        (fun j => readBatch (declared sigs) (shapesOf (vmapArgs inds arrs)) mem (l :: b) (pairAt tagI i j))
        (out.shift (Spec.pos (B :: batch ++ [outRows tagI m n, R.dim]) (l :: b ++ [i, 0]))) := by
    intro M hM junk dimout rows P hP out₀ out he l b hlB hb i hi
    have hb' : Arr.Idx (B :: batch) (l :: b) := .cons hlB hb
    obtain ⟨g1, g2⟩ := list_idx hb'
    have := RowOf.batch hB hM hP he g1 hi
    rw [pos_getD hb'.length_eq] at this
    simp only [g2] at this
    rw [pos_append hb'.length_eq]
    have e2 : Spec.pos (B :: batch) (l :: b) * [outRows tagI m n, R.dim].prod +
        Spec.pos [outRows tagI m n, R.dim] [i, 0] =
        (Spec.pos (B :: batch) (l :: b) * outRows tagI m n + i) * R.dim := by
      simp [Spec.pos]
      ring
    rw [e2]
    exact this
  cases hr with
  | @one M ML hM hML junk junkL dimout rows P hP out₀ out he l hlB o₀ o heL i hi =>
    refine ⟨_, hx hM hP he hlB .nil hi, ?_⟩
    have hS : Setting t e tagI m n (memL l) fun i j =>
        readBatch (declared sigs) (shapesOf (vmapArgs inds arrs)) mem [l] (pairAt tagI i j) := by
      refine hl.setting h.pos hrun h.tag h.vars (fun i hi j hj => ?_) fun i hi j hj => ?_
      · obtain ⟨p1, p2⟩ := pairAt_lt hi hj
        rw [vmap_read hl h.fits hlB hm.vmap (hm.loop l hlB) .nil p1 p2, readBatch_nil hl (h.fits.loop l) _ p1 p2]
      · obtain ⟨p1, p2⟩ := pairAt_lt hi hj
        rw [vmap_read hl h.fits hlB hm.vmap (hm.loop l hlB) .nil p1 p2]
        exact hm.defined l hlB [] .nil _ p1 _ p2
    have := RowOf.dense hS hML heL hi
    rw [show Spec.pos [outRows tagI m n, R.dim] [i, 0] = i * R.dim by simp [Spec.pos]]
    exact this
  | @batch _ hne M ML hM hML junk junkL dimout rows dimoutL rowsL P PL hP out₀ out he l hlB hPL o₀ o heL b hb i hi =>
    refine ⟨_, hx hM hP he hlB hb hi, ?_⟩
    have hS : BatchSetting t e tagI batch.length (fun c => batch.getD c 0) (shapesOf (loopArgs l inds arrs)) m n
        (memL l) fun idx i j => readBatch (declared sigs) (shapesOf (vmapArgs inds arrs)) mem
          (l :: (List.range batch.length).map idx) (pairAt tagI i j) := by
      refine hl.batchSetting h.pos hrun h.tag h.vars hev (h.fits.loop l) (h.fits.callBatch hev h.some l h.call hne)
        (fun idx hidx i hi j hj => ?_) fun idx hidx i hi j hj => ?_
      · obtain ⟨p1, p2⟩ := pairAt_lt hi hj
        rw [vmap_read hl h.fits hlB hm.vmap (hm.loop l hlB) (idx_list hidx) p1 p2]
      · obtain ⟨p1, p2⟩ := pairAt_lt hi hj
        rw [vmap_read hl h.fits hlB hm.vmap (hm.loop l hlB) (idx_list hidx) p1 p2]
        exact hm.defined l hlB _ (idx_list hidx) _ p1 _ p2
    obtain ⟨g1, g2⟩ := list_idx hb
    have := RowOf.batch hS hML hPL heL g1 hi
    rw [pos_getD hb.length_eq] at this
    simp only [g2] at this
    rw [pos_append hb.length_eq]
    have e2 : Spec.pos batch b * [outRows tagI m n, R.dim].prod + Spec.pos [outRows tagI m n, R.dim] [i, 0] =
        (Spec.pos batch b * outRows tagI m n + i) * R.dim := by
      simp [Spec.pos]
      ring
    rw [e2]
    exact this

end

/-- The reductions that compare numbers, of formulas of dimension `d`, and the summation schemes they can be asked for in
two calls. -/
inductive Comparison (cast : Nat → EReal) (d : Nat) : Red EReal → SumScheme → SumScheme → Prop
  | min : Comparison cast d (minRed d) .direct .direct
  | max : Comparison cast d (maxRed d) .direct .direct
  | argmin : Comparison cast d (argMinRed cast d) .direct .direct
  | argmax : Comparison cast d (argMaxRed cast d) .direct .direct
  | minArgmin : Comparison cast d (minArgMinRed cast d) .direct .direct
  | maxArgmax : Comparison cast d (maxArgMaxRed cast d) .direct .direct
  | kmin (K : Nat) {sch schL : SumScheme} (h : sch ≠ .kahan) (hL : schL ≠ .kahan) :
    Comparison cast d (kminRed cast d K) sch schL
  | argkmin (K : Nat) {sch schL : SumScheme} (h : sch ≠ .kahan) (hL : schL ≠ .kahan) :
    Comparison cast d (argKminRed cast d K) sch schL
  | kminArgkmin (K : Nat) {sch schL : SumScheme} (h : sch ≠ .kahan) (hL : schL ≠ .kahan) :
    Comparison cast d (kminArgKminRed cast d K) sch schL

/-- **C48**, reductions that compare numbers: minima, maxima, their indices, and the `K` smallest values with their
indices.  The block `l` of the output of the call given by `vmap` is the output of the call number `l` of the loop.  Rows
are not empty.

Partial: mapped axes after the second one, for which it fails (`not_C48`). -/
theorem C48_comparison_partial {t : Term} {e : Expr} {sigs : List VarId} {tagI m n : Nat} {inds : List (Option Nat)}
    {arrs : List (Spec.Arr ℝ)} {B : Nat} {batch : List Nat} {mem : Nat → Nat → ℝ} {memL : Nat → Nat → Nat → ℝ}
    (h : VmapSetting t e sigs tagI m n inds arrs B batch) (hm : VmapMem t sigs m n inds arrs B batch mem memL)
    (hne : 0 < redRows tagI m n) {cast : Nat → EReal} {R : Red EReal} {sch schL : SumScheme}
    (hR : Comparison cast e.dim R sch schL) :
    ∃ S SL, getScheme R sch = some S ∧ getScheme R schL = some SL ∧ ∀ x y,
      VmapRow Real.toEReal EReal.toReal e tagI m n inds arrs B mem memL R S SL batch x y → ∀ k < R.dim, x k = y k := by
  have hn : List.range (redRows tagI m n) ≠ [] := fun h0 => by
    rw [List.range_eq_nil] at h0
    omega
  have hpw : (List.range (redRows tagI m n)).Pairwise (· < ·) := List.pairwise_lt_range
  have hdim : e.dim = t.dim ∧ 0 < t.dim := by
    obtain ⟨N, hc⟩ := h.compiled
    have := compile_rep h.pos hc
    exact ⟨this.dim, this.dim ▸ this.wf.pos⟩
  -- component `k + l * c` of a row of `K` blocks
  have blocks : ∀ {K d k : Nat}, 0 < d → k < K * d → k % d < d ∧ k / d < K ∧ k % d + k / d * d = k := fun {K d k} hd hk =>
    ⟨Nat.mod_lt _ hd, Nat.div_lt_of_lt_mul (by rwa [Nat.mul_comm] at hk), by
      rw [Nat.mul_comm]; exact Nat.mod_add_div k d⟩
  cases hR with
  | min =>
    obtain ⟨S, hS, h1⟩ := C52_rows_min (t := t) (e := e)
    refine ⟨S, S, hS, hS, fun x y hr k hk => ?_⟩
    obtain ⟨env, hx, hy⟩ := hr.rows h hm
    obtain ⟨a1, j, hj, a2⟩ := h1 _ _ _ hx hn k (hdim.1 ▸ hk)
    obtain ⟨b1, j', hj', b2⟩ := h1 _ _ _ hy hn k (hdim.1 ▸ hk)
    exact le_antisymm (b2 ▸ a1 j' hj') (a2 ▸ b1 j hj)
  | max =>
    obtain ⟨S, hS, h1⟩ := C52_rows_max (t := t) (e := e)
    refine ⟨S, S, hS, hS, fun x y hr k hk => ?_⟩
    obtain ⟨env, hx, hy⟩ := hr.rows h hm
    obtain ⟨a1, j, hj, a2⟩ := h1 _ _ _ hx hn k (hdim.1 ▸ hk)
    obtain ⟨b1, j', hj', b2⟩ := h1 _ _ _ hy hn k (hdim.1 ▸ hk)
    exact le_antisymm (a2 ▸ b1 j hj) (b2 ▸ a1 j' hj')
  | argmin =>
    obtain ⟨S, hS, h1⟩ := C52_rows_argmin (t := t) (e := e) cast
    refine ⟨S, S, hS, hS, fun x y hr k hk => ?_⟩
    obtain ⟨env, hx, hy⟩ := hr.rows h hm
    obtain ⟨j, hj, a⟩ := h1 _ _ _ hx hn k (hdim.1 ▸ hk)
    obtain ⟨j', hj', b⟩ := h1 _ _ _ hy hn k (hdim.1 ▸ hk)
    rw [a, b, Lazy.FirstLeast.unique hj hj']
  | argmax =>
    obtain ⟨S, hS, h1⟩ := C52_rows_argmax (t := t) (e := e) cast
    refine ⟨S, S, hS, hS, fun x y hr k hk => ?_⟩
    obtain ⟨env, hx, hy⟩ := hr.rows h hm
    obtain ⟨j, hj, a⟩ := h1 _ _ _ hx hn k (hdim.1 ▸ hk)
    obtain ⟨j', hj', b⟩ := h1 _ _ _ hy hn k (hdim.1 ▸ hk)
    rw [a, b, Lazy.FirstGreatest.unique hj hj']
  | minArgmin =>
    obtain ⟨S, hS, h1⟩ := C52_rows_min_argmin (t := t) (e := e) cast
    refine ⟨S, S, hS, hS, fun x y hr k hk => ?_⟩
    obtain ⟨env, hx, hy⟩ := hr.rows h hm
    have hk' : k < 2 * t.dim := hdim.1 ▸ hk
    by_cases hlt : k < t.dim
    · obtain ⟨j, hj, a, -⟩ := h1 _ _ _ hx hn k hlt
      obtain ⟨j', hj', b, -⟩ := h1 _ _ _ hy hn k hlt
      rw [a, b, Lazy.FirstLeast.unique hj hj']
    · obtain ⟨j, hj, -, a⟩ := h1 _ _ _ hx hn (k - t.dim) (by omega)
      obtain ⟨j', hj', -, b⟩ := h1 _ _ _ hy hn (k - t.dim) (by omega)
      rw [show t.dim + (k - t.dim) = k by omega] at a b
      rw [a, b, Lazy.FirstLeast.unique hj hj']
  | maxArgmax =>
    obtain ⟨S, hS, h1⟩ := C52_rows_max_argmax (t := t) (e := e) cast
    refine ⟨S, S, hS, hS, fun x y hr k hk => ?_⟩
    obtain ⟨env, hx, hy⟩ := hr.rows h hm
    have hk' : k < 2 * t.dim := hdim.1 ▸ hk
    by_cases hlt : k < t.dim
    · obtain ⟨j, hj, a, -⟩ := h1 _ _ _ hx hn k hlt
      obtain ⟨j', hj', b, -⟩ := h1 _ _ _ hy hn k hlt
      rw [a, b, Lazy.FirstGreatest.unique hj hj']
    · obtain ⟨j, hj, -, a⟩ := h1 _ _ _ hx hn (k - t.dim) (by omega)
      obtain ⟨j', hj', -, b⟩ := h1 _ _ _ hy hn (k - t.dim) (by omega)
      rw [show t.dim + (k - t.dim) = k by omega] at a b
      rw [a, b, Lazy.FirstGreatest.unique hj hj']
  | kmin K h0 h0L =>
    obtain ⟨S, hS, h1⟩ := C52_rows_kmin (t := t) (e := e) cast K sch h0
    obtain ⟨SL, hSL, h2⟩ := C52_rows_kmin (t := t) (e := e) cast K schL h0L
    refine ⟨S, SL, hS, hSL, fun x y hr k hk => ?_⟩
    obtain ⟨env, hx, hy⟩ := hr.rows h hm
    obtain ⟨q1, q2, q3⟩ := blocks (K := K) (d := t.dim) hdim.2 (show k < K * t.dim from hdim.1 ▸ hk)
    obtain ⟨σ, hσ, a⟩ := h1 _ _ _ hx hpw _ q1
    obtain ⟨τ, hτ, b⟩ := h2 _ _ _ hy hpw _ q1
    obtain rfl := Lazy.SortedBy.unique hσ hτ
    obtain ⟨a1, a2⟩ := a _ q2
    obtain ⟨b1, b2⟩ := b _ q2
    rw [q3] at a1 a2 b1 b2
    by_cases hlen : k / t.dim < σ.length
    · exact (a1 hlen).trans (b1 hlen).symm
    · exact (a2 (by omega)).trans (b2 (by omega)).symm
  | argkmin K h0 h0L =>
    obtain ⟨S, hS, h1⟩ := C52_rows_argkmin (t := t) (e := e) cast K sch h0
    obtain ⟨SL, hSL, h2⟩ := C52_rows_argkmin (t := t) (e := e) cast K schL h0L
    refine ⟨S, SL, hS, hSL, fun x y hr k hk => ?_⟩
    obtain ⟨env, hx, hy⟩ := hr.rows h hm
    obtain ⟨q1, q2, q3⟩ := blocks (K := K) (d := t.dim) hdim.2 (show k < K * t.dim from hdim.1 ▸ hk)
    obtain ⟨σ, hσ, a⟩ := h1 _ _ _ hx hpw _ q1
    obtain ⟨τ, hτ, b⟩ := h2 _ _ _ hy hpw _ q1
    obtain rfl := Lazy.SortedBy.unique hσ hτ
    obtain ⟨a1, a2⟩ := a _ q2
    obtain ⟨b1, b2⟩ := b _ q2
    rw [q3] at a1 a2 b1 b2
    by_cases hlen : k / t.dim < σ.length
    · exact (a1 hlen).trans (b1 hlen).symm
    · exact (a2 (by omega)).trans (b2 (by omega)).symm
  | kminArgkmin K h0 h0L =>
    obtain ⟨S, hS, h1⟩ := C52_rows_kmin_argkmin (t := t) (e := e) cast K sch h0
    obtain ⟨SL, hSL, h2⟩ := C52_rows_kmin_argkmin (t := t) (e := e) cast K schL h0L
    refine ⟨S, SL, hS, hSL, fun x y hr k hk => ?_⟩
    obtain ⟨env, hx, hy⟩ := hr.rows h hm
    have hk' : k < K * (2 * t.dim) := by
      simp only [kminArgKminRed, hdim.1] at hk
      linarith
    obtain ⟨q1, q2, q3⟩ := blocks (K := K) (d := 2 * t.dim) (by omega) hk'
    by_cases hlt : k % (2 * t.dim) < t.dim
    · obtain ⟨σ, hσ, a⟩ := h1 _ _ _ hx hpw _ hlt
      obtain ⟨τ, hτ, b⟩ := h2 _ _ _ hy hpw _ hlt
      obtain rfl := Lazy.SortedBy.unique hσ hτ
      obtain ⟨a1, a2⟩ := a _ q2
      obtain ⟨b1, b2⟩ := b _ q2
      rw [q3] at a1 a2 b1 b2
      by_cases hlen : k / (2 * t.dim) < σ.length
      · exact (a1 hlen).1.trans (b1 hlen).1.symm
      · exact (a2 (by omega)).1.trans (b2 (by omega)).1.symm
    · obtain ⟨σ, hσ, a⟩ := h1 _ _ _ hx hpw (k % (2 * t.dim) - t.dim) (by omega)
      obtain ⟨τ, hτ, b⟩ := h2 _ _ _ hy hpw (k % (2 * t.dim) - t.dim) (by omega)
      obtain rfl := Lazy.SortedBy.unique hσ hτ
      obtain ⟨a1, a2⟩ := a _ q2
      obtain ⟨b1, b2⟩ := b _ q2
      rw [show k % (2 * t.dim) - t.dim + k / (2 * t.dim) * (2 * t.dim) + t.dim = k by omega] at a1 a2 b1 b2
      by_cases hlen : k / (2 * t.dim) < σ.length
      · exact (a1 hlen).2.trans (b1 hlen).2.symm
      · exact (a2 (by omega)).2.trans (b2 (by omega)).2.symm

/-- **C48**, log-sum-exp with weights, after the computations in Python which follow the kernel (`f` is the exponent and `w`
the weight).

Partial: as `C48_comparison_partial`; summation schemes with a compensation. -/
theorem C48_logsumexp_partial {f w : Term} {e : Expr} {sigs : List VarId} {tagI m n : Nat} {inds : List (Option Nat)}
    {arrs : List (Spec.Arr ℝ)} {B : Nat} {batch : List Nat} {mem : Nat → Nat → ℝ} {memL : Nat → Nat → Nat → ℝ}
    (h : VmapSetting (.bin .concat f w) e sigs tagI m n inds arrs B batch)
    (hm : VmapMem (.bin .concat f w) sigs m n inds arrs B batch mem memL) (hf : f.dim = 1)
    (hne : 0 < redRows tagI m n) (g : ℝ → XR) (long : XR → XR) {sch schL : SumScheme} (hsch : sch ≠ .kahan)
    (hschL : schL ≠ .kahan) :
    ∃ S SL, getScheme (@lseRed XR (xrNum g) w.dim) sch = some S ∧ getScheme (@lseRed XR (xrNum g) w.dim) schL = some SL ∧
      ∀ x y, VmapRow XR.fin XR.val e tagI m n inds arrs B mem memL (@lseRed XR (xrNum g) w.dim) S SL batch x y →
      ∃ a b, postprocess (xrPost long) .logSumExp 0 (1 + w.dim) x = some [a] ∧
        postprocess (xrPost long) .logSumExp 0 (1 + w.dim) y = some [b] ∧
        a.shape = [w.dim] ∧ b.shape = [w.dim] ∧ ∀ k < w.dim, a.get k = b.get k := by
  have hn : List.range (redRows tagI m n) ≠ [] := fun h0 => by
    rw [List.range_eq_nil] at h0
    omega
  obtain ⟨S, hS, h1⟩ := C52_rows_logsumexp (e := e) (w := w) hf g long sch hsch
  obtain ⟨SL, hSL, h2⟩ := C52_rows_logsumexp (e := e) (w := w) hf g long schL hschL
  refine ⟨S, SL, hS, hSL, fun x y hr => ?_⟩
  obtain ⟨env, hx, hy⟩ := hr.rows h hm
  obtain ⟨a, a1, a2, a3⟩ := h1 _ _ _ hx hn
  obtain ⟨b, b1, b2, b3⟩ := h2 _ _ _ hy hn
  exact ⟨a, b, a1, b1, a2, b2, fun k hk => (a3 k hk).trans (b3 k hk).symm⟩

/-- **C48**, sums weighted by a softmax, after the computations in Python which follow the kernel.

Partial: as `C48_logsumexp_partial`. -/
theorem C48_sumsoftmaxweight_partial {f w : Term} {e : Expr} {sigs : List VarId} {tagI m n : Nat}
    {inds : List (Option Nat)} {arrs : List (Spec.Arr ℝ)} {B : Nat} {batch : List Nat} {mem : Nat → Nat → ℝ}
    {memL : Nat → Nat → Nat → ℝ}
    (h : VmapSetting (.bin .concat f (.bin .concat (.int 1) w)) e sigs tagI m n inds arrs B batch)
    (hm : VmapMem (.bin .concat f (.bin .concat (.int 1) w)) sigs m n inds arrs B batch mem memL) (hf : f.dim = 1)
    (hne : 0 < redRows tagI m n) (g : ℝ → XR) (long : XR → XR) {sch schL : SumScheme} (hsch : sch ≠ .kahan)
    (hschL : schL ≠ .kahan) :
    ∃ S SL, getScheme (@lseRed XR (xrNum g) (1 + w.dim)) sch = some S ∧
      getScheme (@lseRed XR (xrNum g) (1 + w.dim)) schL = some SL ∧
      ∀ x y, VmapRow XR.fin XR.val e tagI m n inds arrs B mem memL (@lseRed XR (xrNum g) (1 + w.dim)) S SL batch x y →
      ∃ a b, postprocess (xrPost long) .sumSoftMaxWeight 0 (1 + (1 + w.dim)) x = some [a] ∧
        postprocess (xrPost long) .sumSoftMaxWeight 0 (1 + (1 + w.dim)) y = some [b] ∧
        a.shape = [w.dim] ∧ b.shape = [w.dim] ∧ ∀ k < w.dim, a.get k = b.get k := by
  have hn : List.range (redRows tagI m n) ≠ [] := fun h0 => by
    rw [List.range_eq_nil] at h0
    omega
  obtain ⟨S, hS, h1⟩ := C52_rows_sumsoftmaxweight (e := e) (w := w) hf g long sch hsch
  obtain ⟨SL, hSL, h2⟩ := C52_rows_sumsoftmaxweight (e := e) (w := w) hf g long schL hschL
  refine ⟨S, SL, hS, hSL, fun x y hr => ?_⟩
  obtain ⟨env, hx, hy⟩ := hr.rows h hm
  obtain ⟨a, a1, a2, a3⟩ := h1 _ _ _ hx hn
  obtain ⟨b, b1, b2, b3⟩ := h2 _ _ _ hy hn
  exact ⟨a, b, a1, b1, a2, b2, fun k hk => (a3 k hk).trans (b3 k hk).symm⟩

/-! ## The hypotheses can be met -/

theorem gauss_mem (m n : Nat) (x y b : List Nat → ℝ) :
    VmapMem gauss jvpSigs m n [some 1, none, some 0] (gaussArrs m n x y b) 5 [] (flat (vmapArgs [some 1, none, some 0]
      (gaussArrs m n x y b))) fun l => flat (loopArgs l [some 1, none, some 0] (gaussArrs m n x y b)) :=
  ⟨stored_flat _, fun _ _ => stored_flat _, fun l _ b' _ i _ j _ => by simp [Term.Def, binDef, unDef]⟩

/-- The 4 smallest values of a Gaussian kernel times a vector, and their indices: the call given by `vmap` runs on a GPU by
blocks, and the loop on a CPU. -/
example (m n : Nat) (hm : m < 2 ^ 28) (hn : n < 2 ^ 28) (h0 : 0 < n) (x y b : List Nat → ℝ) :
    ∃ (out : Mem EReal) (S : Scheme EReal), getScheme (kminArgKminRed (fun j => (j : EReal)) 2 4) .direct = some S ∧
      ∀ l < 5, ∀ o₀ o, Exec (kminArgKminRed (fun j => (j : EReal)) 2 4) S (gaussE.call Real.toEReal EReal.toReal realMath
          (fun _ _ => 0) 0 m n
          fun p q => (flat (loopArgs l [some 1, none, some 0] (gaussArrs m n x y b)) p q : EReal)) o₀ o →
        ∀ i < m, ∀ k < 16, out (Spec.pos [5, m, 16] [l, i, k]) = o (Spec.pos [m, 16] [i, k]) := by
  have hset := gauss_vmap m n hm hn x y b
  obtain ⟨S, SL, -, hSL, h⟩ := C48_comparison_partial hset (gauss_mem m n x y b) (by simpa [redRows] using h0)
    (.kminArgkmin (cast := fun j => (j : EReal)) 4 (sch := .block) (schL := .direct) (by decide) (by decide))
  obtain ⟨⟨P, hP⟩, -⟩ := C48_runs hset
    (gaussE.call Real.toEReal EReal.toReal realMath (fun _ _ => 0) 0 m n fun p q =>
      (flat (vmapArgs [some 1, none, some 0] (gaussArrs m n x y b)) p q : EReal)).ev
    (fun p q => (flat (vmapArgs [some 1, none, some 0] (gaussArrs m n x y b)) p q : EReal)) 16 (5 * m)
  obtain ⟨out, ho⟩ := rexec_exists_gpu (kminArgKminRed (fun j => (j : EReal)) 2 4) S P (fun _ => 0)
  refine ⟨out, SL, hSL, fun l hl o₀ o he i hi k hk => ?_⟩
  have := h _ _ (.one realMath_exact realMath_exact hP ho hl he hi) k hk
  simp only [Mem.shift_apply] at this
  have hd : (kminArgKminRed (fun j => (j : EReal)) 2 4).dim = 16 := rfl
  rw [hd] at this
  simpa [Spec.pos, outRows, Nat.add_assoc] using this

end Verif
