import Verif.Proofs.Vmap
import Verif.Props.JvpBatch

/-!
# C48 for calls which compute sums
-/

namespace Verif

open Finset Spec

/-- A call inside `vmap`: an expression `t`, the formula `e` that is run for it, the declarations `sigs` of the arguments,
and the arguments `arrs`, mapped along the axes `inds`, of length `B`; the slices have batch dimensions `batch`. -/
structure VmapSetting (t : Term) (e : Expr) (sigs : List VarId) (tagI m n : Nat) (inds : List (Option Nat))
    (arrs : List (Spec.Arr ℝ)) (B : Nat) (batch : List Nat) : Prop where
  pos : t.Pos
  compiled : ∃ N, t.compile N = .ok e
  tag : tagI < 2
  order : ∀ (a : Nat) (v : VarId), sigs[a]? = some v → v.ind = a
  sig : ∀ v ∈ sigs, 0 < v.dim ∧ (v.cat = 0 ∨ v.cat = 1 ∨ v.cat = 2)
  vars : ∀ u ∈ t.vars, u ∈ declared sigs
  some : 0 < B
  fits : VmapFits (declared sigs) inds arrs B batch m n
  call : CallBatch e (shapesOf (vmapArgs inds arrs)) (B :: batch)

/-- **C48**, sums, calls without batch dimensions: `vmap` gives its transposed arguments to a call with one batch
dimension.  This call runs, and the block `l` of its output is the output of the call number `l` of the loop over the
mapped axes: both kernels run on any device, with any summation scheme.

Partial: mapped axes after the second one, for which it fails (`not_C48`).  Other reductions are in `VmapRed.lean`. -/
theorem C48_sum_partial {t : Term} {e : Expr} {sigs : List VarId} {tagI m n : Nat} {inds : List (Option Nat)}
    {arrs : List (Spec.Arr ℝ)} {B : Nat} (h : VmapSetting t e sigs tagI m n inds arrs B [])
    {mem : Nat → Nat → ℝ} (hm : Stored mem (vmapArgs inds arrs))
    {memL : Nat → Nat → Nat → ℝ} (hL : ∀ l < B, Stored (memL l) (loopArgs l inds arrs))
    (hd : ∀ l < B, ∀ i < m, ∀ j < n, e.Def (readEnv (declared sigs) (memL l) (i, j))) (sch schL : SumScheme) :
    ∃ S SL, getScheme (sumRed (V := ℝ) e.dim) sch = some S ∧ getScheme (sumRed (V := ℝ) e.dim) schL = some SL ∧
      ∀ M : CMath, M.Exact → ∀ junk dimout rows,
        ∃ P, rangeCall (e.call id id M junk tagI m n mem).ev e.inputs tagI mem (shapesOf (vmapArgs inds arrs)) m n
            dimout rows none = some P ∧
        ∀ out₀ out, RExec (sumRed e.dim) S P out₀ out →
        ∀ l < B, ∀ o₀ o, Exec (sumRed e.dim) SL (e.call id id M junk tagI m n (memL l)) o₀ o →
        ∀ i < outRows tagI m n, ∀ k < e.dim,
          out (Spec.pos [B, outRows tagI m n, e.dim] [l, i, k]) = o (Spec.pos [outRows tagI m n, e.dim] [i, k]) := by
  obtain ⟨N, hc⟩ := h.compiled
  obtain ⟨hff, hvars⟩ := compile_vars h.pos hc
  have hw := (compile_rep h.pos hc).wf
  have hev : ∀ u ∈ e.vars, u ∈ declared sigs := fun u hu => h.vars u (hvars u hu)
  obtain ⟨hl, -⟩ := declared_plain h.order h.sig
  have hcs := h.fits.vmapped h.some
  obtain ⟨S, hS, h1⟩ := sum_exec_batch (args := mem) hl hw hff hev h.tag (fun u hu => hcs u (hev u hu)) h.call sch
  obtain ⟨SL, hSL, -⟩ := C09_sum ℝ e.dim schL
  have read : ∀ l < B, ∀ p : Nat × Nat, p.1 < m → p.2 < n →
      readBatch (declared sigs) (shapesOf (vmapArgs inds arrs)) mem [l] p = readEnv (declared sigs) (memL l) p :=
    fun l hlB p p1 p2 => by
      rw [vmap_read hl h.fits hlB hm (hL l hlB) .nil p1 p2, readBatch_nil hl (h.fits.loop l) _ p1 p2]
  refine ⟨S, SL, hS, hSL, fun M hM junk dimout rows => ?_⟩
  obtain ⟨P, hP, h2⟩ := h1 M hM junk dimout rows
  refine ⟨P, hP, fun out₀ out he l hlB o₀ o heL i hi k hk => ?_⟩
  obtain ⟨SL', hSL', h3⟩ := sum_exec hl hw hff hev h.tag (hd l hlB) schL
  rw [hSL] at hSL'
  cases hSL'
  have a := h2 out₀ out he (fun b hb i hi j hj => by
    cases hb with
    | cons hb1 hb2 =>
      cases hb2
      rw [read _ hb1 _ hi hj]
      exact hd _ hb1 i hi j hj) [l] (.cons hlB .nil) i hi k hk
  have b := h3 M hM junk o₀ o heL i hi k hk
  simp only [List.cons_append, List.nil_append] at a
  rw [a, show Spec.pos [outRows tagI m n, e.dim] [i, k] = i * e.dim + k by simp [Spec.pos], b]
  unfold sumRow
  refine sum_congr rfl fun s hs => ?_
  obtain ⟨p1, p2⟩ := pairAt_lt hi (mem_range.mp hs)
  rw [read l hlB _ p1 p2]

/-- **C48**, sums, calls with batch dimensions: the batch dimension given by `vmap` comes first.  The call given by
`vmap` and the calls of the loop run, and the block `l` of the output of the first one is the output of the call number
`l` of the loop.

Partial: as `C48_sum_partial`. -/
theorem C48_sum_batch_partial {t : Term} {e : Expr} {sigs : List VarId} {tagI m n : Nat} {inds : List (Option Nat)}
    {arrs : List (Spec.Arr ℝ)} {B : Nat} {batch : List Nat} (h : VmapSetting t e sigs tagI m n inds arrs B batch)
    (hne : batch ≠ []) {mem : Nat → Nat → ℝ} (hm : Stored mem (vmapArgs inds arrs))
    {memL : Nat → Nat → Nat → ℝ} (hL : ∀ l < B, Stored (memL l) (loopArgs l inds arrs))
    (hd : ∀ l < B, ∀ b, Arr.Idx batch b → ∀ i < m, ∀ j < n,
      e.Def (readBatch (declared sigs) (shapesOf (loopArgs l inds arrs)) (memL l) b (i, j))) (sch schL : SumScheme) :
    ∃ S SL, getScheme (sumRed (V := ℝ) e.dim) sch = some S ∧ getScheme (sumRed (V := ℝ) e.dim) schL = some SL ∧
      ∀ M : CMath, M.Exact → ∀ junk dimout rows rowsL,
        ∃ P, rangeCall (e.call id id M junk tagI m n mem).ev e.inputs tagI mem (shapesOf (vmapArgs inds arrs)) m n
            dimout rows none = some P ∧
        ∀ l < B, ∃ PL, rangeCall (e.call id id M junk tagI m n (memL l)).ev e.inputs tagI (memL l)
            (shapesOf (loopArgs l inds arrs)) m n dimout rowsL none = some PL ∧
        ∀ out₀ out, RExec (sumRed e.dim) S P out₀ out → ∀ o₀ o, RExec (sumRed e.dim) SL PL o₀ o →
        ∀ b, Arr.Idx batch b → ∀ i < outRows tagI m n, ∀ k < e.dim,
          out (Spec.pos (B :: batch ++ [outRows tagI m n, e.dim]) (l :: b ++ [i, k])) =
            o (Spec.pos (batch ++ [outRows tagI m n, e.dim]) (b ++ [i, k])) := by
  obtain ⟨N, hc⟩ := h.compiled
  obtain ⟨hff, hvars⟩ := compile_vars h.pos hc
  have hw := (compile_rep h.pos hc).wf
  have hev : ∀ u ∈ e.vars, u ∈ declared sigs := fun u hu => h.vars u (hvars u hu)
  obtain ⟨hl, -⟩ := declared_plain h.order h.sig
  have hcs := h.fits.vmapped h.some
  obtain ⟨S, hS, h1⟩ := sum_exec_batch (args := mem) hl hw hff hev h.tag (fun u hu => hcs u (hev u hu)) h.call sch
  obtain ⟨SL, hSL, -⟩ := C18_sum_partial ℝ e.dim schL
  refine ⟨S, SL, hS, hSL, fun M hM junk dimout rows rowsL => ?_⟩
  obtain ⟨P, hP, h2⟩ := h1 M hM junk dimout rows
  refine ⟨P, hP, fun l hlB => ?_⟩
  obtain ⟨SL', hSL', h3⟩ := sum_exec_batch (args := memL l) hl hw hff hev h.tag
    (fun u hu => h.fits.loop l u (hev u hu)) (h.fits.callBatch hev h.some l h.call hne) schL
  rw [hSL] at hSL'
  cases hSL'
  obtain ⟨PL, hPL, h4⟩ := h3 M hM junk dimout rowsL
  refine ⟨PL, hPL, fun out₀ out he o₀ o heL b hb i hi k hk => ?_⟩
  rw [h4 o₀ o heL (hd l hlB) b hb i hi k hk, h2 out₀ out he (fun b hb i hi j hj => by
    cases hb with
    | cons hb1 hb2 =>
      rw [vmap_read hl h.fits hb1 hm (hL _ hb1) hb2 (p := (i, j)) hi hj]
      exact hd _ hb1 _ hb2 i hi j hj) (l :: b) (.cons hlB hb) i hi k hk]
  unfold sumRow
  refine sum_congr rfl fun s hs => ?_
  obtain ⟨p1, p2⟩ := pairAt_lt hi (mem_range.mp hs)
  rw [vmap_read hl h.fits hlB hm (hL l hlB) hb p1 p2]

/-! ## The hypotheses can be met -/

/-- The memory of contiguous arrays. -/
noncomputable def flat (arrs : List (Spec.Arr ℝ)) : Nat → Nat → ℝ := fun q k =>
  match arrs[q]? with
  | some a => a.get (unravel a.shape k)
  | none => 0

theorem stored_flat (arrs : List (Spec.Arr ℝ)) : Stored (flat arrs) arrs := fun q a h idx hi => by
  simp only [flat, h, pos_eq, unravel_ravel hi]

/-- A Gaussian convolution mapped along the second axis of `x`, of shape `(m, 5, 3)`, and the first axis of `b`, of shape
`(5, n, 2)`; `y`, of shape `(n, 3)`, is not mapped. -/
def gaussArrs (m n : Nat) (x y b : List Nat → ℝ) : List (Spec.Arr ℝ) := [⟨[m, 5, 3], x⟩, ⟨[n, 3], y⟩, ⟨[5, n, 2], b⟩]

theorem gauss_vmap (m n : Nat) (hm : m < 2 ^ 28) (hn : n < 2 ^ 28) (x y b : List Nat → ℝ) :
    VmapSetting gauss gaussE jvpSigs 0 m n [some 1, none, some 0] (gaussArrs m n x y b) 5 [] where
  pos := gauss_pos
  compiled := ⟨20, rfl⟩
  tag := by omega
  order := jvpSigs_order
  sig := jvpSigs_sig
  vars := by decide
  some := by omega
  fits u hu := by
    simp only [declared, List.map_cons, List.map_nil, List.mem_cons, List.not_mem_nil, or_false] at hu
    rcases hu with rfl | rfl | rfl
    · exact ⟨_, _, [], rfl, rfl, .nil, fun j hj => by cases hj; exact ⟨by omega, rfl⟩, rfl⟩
    · exact ⟨_, _, [], rfl, rfl, .nil, fun j hj => (by cases hj), rfl⟩
    · exact ⟨_, _, [], rfl, rfl, .nil, fun j hj => by cases hj; exact ⟨by omega, rfl⟩, rfl⟩
  call := ⟨by simp, ⟨(0, 3, 0), by decide, by decide⟩, fun c hc => .inr ⟨(2, 2, 1), by decide, by
      obtain rfl : c = 0 := by simpa using hc
      rfl⟩, fun u hu => by
        have : u ∈ declared jvpSigs := by
          revert u
          decide
        simp only [declared, List.map_cons, List.map_nil, List.mem_cons, List.not_mem_nil, or_false] at this
        rcases this with rfl | rfl | rfl <;> simp [gaussArrs, vmapArg, swap0] <;> omega⟩

/-- The convolutions of the loop are the blocks of the output of the call given by `vmap`, when it runs on a GPU and the
loop on a CPU. -/
example (m n : Nat) (hm : m < 2 ^ 28) (hn : n < 2 ^ 28) (x y b : List Nat → ℝ) :
    ∃ (out : Mem ℝ) (S : Scheme ℝ), getScheme (sumRed (V := ℝ) 2) .kahan = some S ∧
      ∀ l < 5, ∀ o₀ o, Exec (sumRed 2) S (gaussE.call id id realMath (fun _ _ => 0) 0 m n
          (flat (loopArgs l [some 1, none, some 0] (gaussArrs m n x y b)))) o₀ o →
        ∀ i < m, ∀ k < 2, out (Spec.pos [5, m, 2] [l, i, k]) = o (Spec.pos [m, 2] [i, k]) := by
  obtain ⟨S, SL, -, hSL, h⟩ := C48_sum_partial (gauss_vmap m n hm hn x y b) (stored_flat _)
    (memL := fun l => flat (loopArgs l [some 1, none, some 0] (gaussArrs m n x y b))) (fun l _ => stored_flat _)
    (fun l _ i _ j _ => by simp [gaussE, Expr.Def, binDef, unDef]) .direct .kahan
  obtain ⟨P, -, h⟩ := h realMath realMath_exact (fun _ _ => 0) 2 (5 * m)
  obtain ⟨out, ho⟩ := rexec_exists_gpu (sumRed 2) S P (fun _ => 0)
  exact ⟨out, SL, hSL, fun l hl o₀ o he i hi k hk => h _ out ho l hl o₀ o he i hi k hk⟩

/-! ## The third axis -/

/-- `x_i + y_j`, vectors of dimension 2. -/
abbrev add2 : Expr := .bin .add (.var 0 2 0) (.var 1 2 1)

/-- Its arguments: `x[i, k, l] = i`, which will be mapped along its last axis, and one row of zeros `y`. -/
def add2Arrs : List (Spec.Arr ℝ) := [⟨[2, 2, 2], fun idx => idx.headD 0⟩, ⟨[1, 2], fun _ => 0⟩]

/-- Not **C48**, sums: `x[i, :, l] + y[0, :]` with `x` mapped along its third axis.  The call given by `vmap` runs, without
an error, and its output is 0 where the output of the loop is 1. -/
theorem not_C48_sum (M : CMath) (hM : M.Exact) (junk : Expr → Nat → ℝ) (sch schL : SumScheme) :
    ∃ S SL P, getScheme (sumRed (V := ℝ) 2) sch = some S ∧ getScheme (sumRed (V := ℝ) 2) schL = some SL ∧
      rangeCall (add2.call id id M junk 0 2 1 (flat (vmapArgs [some 2, none] add2Arrs))).ev add2.inputs 0
        (flat (vmapArgs [some 2, none] add2Arrs)) (shapesOf (vmapArgs [some 2, none] add2Arrs)) 2 1 2 4 none = some P ∧
      (∀ out₀ out, RExec (sumRed 2) S P out₀ out → out (Spec.pos [2, 2, 2] [0, 1, 0]) = 0) ∧
      ∀ o₀ o, Exec (sumRed 2) SL (add2.call id id M junk 0 2 1 (flat (loopArgs 0 [some 2, none] add2Arrs))) o₀ o →
        o (Spec.pos [2, 2] [1, 0]) = 1 := by
  have hl : PlainVars [((0 : Int), 2, (0 : Int)), (1, 2, 1)] := ⟨by decide, by decide, by decide⟩
  have hw : add2.WF := by simp [Expr.WF, Expr.dim, Bin.accept, Bin.dim, dimsOk]
  have hff : add2.FactFree := by simp [Expr.FactFree]
  have hs : CallShapes add2.vars (shapesOf (vmapArgs [some 2, none] add2Arrs)) [2] 2 1 := by
    intro u hu
    simp only [Expr.vars, List.cons_append, List.nil_append, List.mem_cons, List.not_mem_nil, or_false] at hu
    rcases hu with rfl | rfl
    · exact ⟨[2], .cons ⟨by omega, .inl rfl⟩ .nil, rfl⟩
    · exact ⟨[1], .cons ⟨by omega, .inr rfl⟩ .nil, rfl⟩
  have hc : CallBatch add2 (shapesOf (vmapArgs [some 2, none] add2Arrs)) [2] :=
    ⟨by simp, ⟨(0, 2, 0), by decide, by decide⟩, fun c hc => .inr ⟨(0, 2, 0), by decide, by
      obtain rfl : c = 0 := by simpa using hc
      rfl⟩, fun u hu => by
        simp only [Expr.vars, List.cons_append, List.nil_append, List.mem_cons, List.not_mem_nil, or_false] at hu
        rcases hu with rfl | rfl <;> simp [add2Arrs, vmapArg, swap0]⟩
  obtain ⟨S, hS, h1⟩ := sum_exec_batch (args := flat (vmapArgs [some 2, none] add2Arrs)) (r := add2) (axis := 0) hl hw hff
    (by decide) (by omega) hs hc sch
  obtain ⟨P, hP, h2⟩ := h1 M hM junk 2 4
  obtain ⟨SL, hSL, h3⟩ := sum_exec (args := flat (loopArgs 0 [some 2, none] add2Arrs)) (r := add2) (axis := 0) (m := 2)
    (n := 1) hl hw hff (by decide) (by omega) (fun i _ j _ => by simp [Expr.Def, binDef]) schL
  refine ⟨S, SL, P, hS, hSL, hP, fun out₀ out he => ?_, fun o₀ o he => ?_⟩
  · have := h2 out₀ out he (fun b _ i _ j _ => by simp [Expr.Def, binDef]) [0] (.cons (by omega) .nil) 1
      (by simp [outRows]) 0 (by decide)
    refine Eq.trans this ?_
    simp [sumRow, redRows, Expr.val, binVal, cst, readBatch, pairAt, rowAt, Arr.at', clip, Spec.pos, Expr.dim, flat,
      add2Arrs, vmapArg, swap0, unravel]
  · have := h3 M hM junk o₀ o he 1 (by simp [outRows]) 0 (by decide)
    refine Eq.trans this ?_
    simp [sumRow, redRows, Expr.val, binVal, cst, readEnv, pairAt, rowAt, Expr.dim, flat, add2Arrs, loopArg, slice,
      unravel]

end Verif
