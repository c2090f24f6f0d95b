import Verif.Props.EndToEnd
import Verif.Proofs.ChunkKernel

/-!
# C21: sums over large dimensions, evaluated by chunks on the GPU
-/

namespace Verif

open Finset Spec

section

variable {V : Type} {enc : ℝ → V} {dec : V → ℝ} {t : Term} {e : Expr} {tagI m n : Nat}
  {args : Nat → Nat → ℝ} {env : Nat → Nat → Env}

theorem Expr.FactFree.vars_free {e : Expr} (h : e.FactFree) : e.free = e.vars := by
  induction e with
  | var | zero | int | rat => rfl
  | un o f ih => exact ih h
  | bin o f g i1 i2 => exact congrArg₂ _ (i1 h.1) (i2 h.2)
  | tern o f g h' i1 i2 i3 => exact congrArg₂ _ (i1 h.1) (congrArg₂ _ (i2 h.2.1) (i3 h.2.2))
  | fact => exact h.elim

/-- **C21.**  When the chunked kernel is chosen for a formula, each of its executions gives an array that the simple
kernel can give, for the same reduction and the same arrays: for all reductions, accumulation schemes, block sizes,
schedules and contents of the uninitialised memory.

Partial: `e.ChunkSafe` excludes the formulas of `not_C21_params` and `not_C21_scalar`, for which the property fails;
and the formula is not factorized.  For ranges and batches see `C21_ranges_exec_partial` and
`C21_batch_exec_partial`. -/
theorem C21_exec_partial (h : Setting t e tagI m n args env) (hf : e.FactFree) (hmode : chunkMode e = true)
    (hsafe : e.ChunkSafe) (hdec : ∀ x, dec (enc x) = x) (R : Red V) (S : Scheme V) {M : CMath} (hM : M.Exact)
    (junk : Expr → Nat → ℝ) {out out' : Mem V}
    (he : ExecChunks enc dec R S M junk e tagI m n (fun p q => enc (args p q)) out out') :
    Exec R S (e.call enc dec M junk tagI m n fun p q => enc (args p q)) out out' := by
  obtain ⟨q, e₀, h1, h2⟩ := h.runs
  obtain ⟨hrep, -, -, hv⟩ := compiled_good h.pos h.inputs h1 h2
  rw [hf.vars_free] at hv
  refine chunks_exec (env := env) hM hdec h.tag hmode hf hrep.wf
    ⟨fun v hm => h.inputs.pos v (hv v hm), fun v hm => h.inputs.cat v (hv v hm),
      fun u hu v hm => h.inputs.unique u (hv u hu) v (hv v hm)⟩ hsafe
    (fun i hi j hj => (hrep.sem _ (h.defined i hi j hj)).1) (fun i hi j hj v hm k hk => ?_) he
  rw [hdec]
  exact h.reads i hi j hj v (hv v hm) k hk

end

/-- **C21**, sums: the chunked kernel computes `out[i] = Σ_j t(x_i, y_j)` and writes nothing else. -/
theorem C21_sum_partial {t : Term} {e : Expr} {tagI m n : Nat} {args : Nat → Nat → ℝ} {env : Nat → Nat → Env}
    (h : Setting t e tagI m n args env) (hf : e.FactFree) (hmode : chunkMode e = true) (hsafe : e.ChunkSafe)
    (sch : SumScheme) :
    ∃ S, getScheme (sumRed (V := ℝ) e.dim) sch = some S ∧ ∀ M : CMath, M.Exact → ∀ junk out out',
      ExecChunks id id (sumRed e.dim) S M junk e tagI m n args out out' →
      (∀ i < outRows tagI m n, ∀ k < t.dim,
        out' (i * t.dim + k) = ∑ j ∈ range (redRows tagI m n), t.val (env i j) k) ∧
      ∀ p, outRows tagI m n * t.dim ≤ p → out' p = out p := by
  obtain ⟨S, hS, h1⟩ := C52_sum h sch
  exact ⟨S, hS, fun M hM junk out out' he => h1 M hM junk out out'
    (C21_exec_partial (enc := id) (dec := id) h hf hmode hsafe (fun _ => rfl) _ S hM junk he)⟩

/-- **C21**, indices of minima: the chunked kernel returns the first `j` at which `t(x_i, y_j)` is smallest. -/
theorem C21_argmin_partial {t : Term} {e : Expr} {tagI m n : Nat} {args : Nat → Nat → ℝ} {env : Nat → Nat → Env}
    (h : Setting t e tagI m n args env) (hf : e.FactFree) (hmode : chunkMode e = true) (hsafe : e.ChunkSafe)
    (hne : 0 < redRows tagI m n) (cast : Nat → EReal) :
    ∃ S, getScheme (argMinRed cast e.dim) .direct = some S ∧ ∀ M : CMath, M.Exact → ∀ junk out out',
      ExecChunks Real.toEReal EReal.toReal (argMinRed cast e.dim) S M junk e tagI m n (fun p q => (args p q : EReal))
        out out' →
      ∀ i < outRows tagI m n, ∀ k < t.dim, ∃ j < redRows tagI m n, out' (i * t.dim + k) = cast j ∧
        (∀ l < redRows tagI m n, t.val (env i j) k ≤ t.val (env i l) k) ∧
        ∀ l < j, t.val (env i j) k < t.val (env i l) k := by
  obtain ⟨S, hS, h1⟩ := C52_argmin h hne cast
  exact ⟨S, hS, fun M hM junk out out' he => h1 M hM junk out out'
    (C21_exec_partial h hf hmode hsafe EReal.toReal_coe _ S hM junk he)⟩

/-! ## The hypotheses can be met -/

/-- `Exp(-|x - y|^2) * b`, with points of dimension 200. -/
abbrev wide : Term :=
  .bin .mul (.un .exp (.un .minus (.sqDist (.var 0 200 0) (.var 1 200 1)))) (.var 2 2 1)

/-- The formula that is returned. -/
abbrev wideE : Expr :=
  .bin .mul (.un .exp (.un .minus (.un .sum (.un .square (.bin .sub (.var 0 200 0) (.var 1 200 1))))))
    (.var 2 2 1)

/-- The values of the variables of `wide` at `(i, j)`. -/
def wideEnv (args : Nat → Nat → ℝ) (i j : Nat) : Env := fun v k =>
  if v = 0 then args 0 (i * 200 + k) else if v = 1 then args 1 (j * 200 + k) else args 2 (j * 2 + k)

theorem wide_setting (m n : Nat) (args : Nat → Nat → ℝ) : Setting wide wideE 0 m n args (wideEnv args) where
  pos := by simp [Term.Pos, Un.dim]
  inputs := ⟨by simp [Term.vars], by simp [Term.vars], by simp [Term.vars]⟩
  runs := ⟨20, wideE, by decide +kernel, .inl rfl⟩
  tag := by omega
  reads i _ j _ := by
    intro v hv k hk
    simp only [Term.vars, List.cons_append, List.nil_append, List.mem_cons, List.not_mem_nil, or_false] at hv
    rcases hv with rfl | rfl | rfl <;> simp [wideEnv, row]
  defined i _ j _ := by simp [Term.Def, unDef, binDef]

theorem wide_safe : wideE.ChunkSafe where
  scalars := by
    have : wideE.sums = [.un .sum (.un .square (.bin .sub (.var 0 200 0) (.var 1 200 1)))] := by decide +kernel
    rw [this]
    intro c hc v hv h1
    rw [List.mem_singleton] at hc
    subst hc
    simp only [Expr.vars, List.cons_append, List.nil_append, List.mem_cons, List.not_mem_nil, or_false] at hv
    rcases hv with rfl | rfl <;> simp at h1
  params := .inr (by
    have : wideE.outerVars = [(2, 2, 1)] := by decide +kernel
    rw [this]; simp)

/-- There are executions of the chunked kernel, for every formula with one sum. -/
theorem chunks_exists {V : Type} (enc : ℝ → V) (dec : V → ℝ) (R : Red V) (S : Scheme V) (M : CMath)
    (junk : Expr → Nat → ℝ) {e : Expr} (h : chunkMode e = true) (tagI m n : Nat) (args : Nat → Mem V) (out : Mem V) :
    ∃ out', ExecChunks enc dec R S M junk e tagI m n args out out' := by
  obtain ⟨C, hC⟩ : ∃ C, chunkConsts List.dedup e tagI = some C := by
    have h1 := fun d => Expr.chunkedFormulas_eq (e := e) (d := d) |>.1
    simp only [chunkMode, h1] at h
    simp only [chunkConsts, h1]
    rcases hs : e.sums with _ | ⟨a, l⟩
    · rw [hs] at h; cases h
    · exact ⟨_, rfl⟩
  exact ⟨_, .mk List.dedup (fun _ => .refl _) C hC 192 (by omega) (fun _ _ _ => List.range 192) (fun _ _ _ => .refl _)
    (fun _ _ => fun _ => enc 0) _ (.refl _)⟩

/-- A Gaussian convolution in dimension 200, on the GPU: the chunked kernel is chosen, it has executions, and they
all give `Σ_j exp(-|x_i - y_j|²) b_j`. -/
example (m n : Nat) (args : Nat → Nat → ℝ) (out : Mem ℝ) :
    chunkMode wideE = true ∧
    (∃ out', ExecChunks id id (sumRed 2) (directScheme (sumRed 2)) realMath (fun _ _ => 0) wideE 0 m n args out out') ∧
    ∀ out', ExecChunks id id (sumRed 2) (directScheme (sumRed 2)) realMath (fun _ _ => 0) wideE 0 m n args out out' →
      ∀ i < m, ∀ k < 2, out' (i * 2 + k) = ∑ j ∈ range n,
        Real.exp (-∑ c ∈ range 200, (args 0 (i * 200 + c) - args 1 (j * 200 + c)) ^ 2) * args 2 (j * 2 + k) := by
  have hmode : chunkMode wideE = true := by decide +kernel
  refine ⟨hmode, chunks_exists _ _ _ _ _ _ hmode _ _ _ _ _, fun out' he i hi k hk => ?_⟩
  obtain ⟨S, hS, h⟩ := C21_sum_partial (wide_setting m n args) (by simp [Expr.FactFree]) hmode wide_safe .direct
  cases hS
  have h2 : wide.dim = 2 := by decide
  have := (h realMath realMath_exact _ out out' he).1 i hi k (h2.symm ▸ hk)
  rw [h2] at this
  rw [this]
  refine Finset.sum_congr rfl fun j _ => ?_
  simp [Term.val, binVal, unVal, sqn, Term.dim, cst, wideEnv]

/-! ## Formulas for which the property fails -/

/-- `(s * x) * (q | y)`, with two parameters, `q` of dimension 146 and `s` of dimension 1. -/
abbrev twoParams : Term :=
  .bin .mul (.bin .mul (.var 1 1 2) (.var 3 1 0)) (.bin .scalprod (.var 0 146 2) (.var 2 146 1))

abbrev twoParamsE : Expr :=
  .bin .mul (.bin .mul (.var 1 1 2) (.var 3 1 0)) (.bin .scalprod (.var 0 146 2) (.var 2 146 1))

/-- `q = (1, 0, …, 0)`, and all other entries are 1. -/
noncomputable def twoParamsArgs : Nat → Nat → ℝ := fun p k => if p = 0 then (if k = 0 then 1 else 0) else 1

noncomputable def twoParamsEnv : Env := fun v k => twoParamsArgs v.toNat k

theorem twoParams_setting : Setting twoParams twoParamsE 0 1 1 twoParamsArgs (fun _ _ => twoParamsEnv) where
  pos := by simp [Term.Pos]
  inputs := ⟨by simp [Term.vars], by simp [Term.vars], by simp [Term.vars]⟩
  runs := ⟨20, twoParamsE, by decide +kernel, .inl rfl⟩
  tag := by omega
  reads i hi j hj := by
    have hi : i = 0 := by simpa [outRows] using hi
    have hj : j = 0 := by simpa [redRows] using hj
    subst hi hj
    intro v hv k hk
    have : row 0 0 0 v.2.2.toNat = 0 := by unfold row; split <;> simp
    rw [this, Nat.zero_mul, Nat.zero_add]
    rfl
  defined i _ j _ := by simp [Term.Def, binDef]

theorem twoParams_val : twoParams.val twoParamsEnv 0 = 1 := by
  simp [Term.val, binVal, Term.dim, cst, twoParamsEnv, twoParamsArgs, Bin.dim]

/-- The constants of the kernel for `twoParams`. -/
def twoParamsC : ChunkConsts :=
  ⟨146, 3, 18, 4, .bin .scalprod (.var 0 64 2) (.var 2 64 1), .bin .scalprod (.var 0 18 2) (.var 2 18 1),
    .bin .mul (.bin .mul (.var 1 1 2) (.var 3 1 0)) (.var 4 1 3), ⟨[⟨3, 1, 0⟩], []⟩, ⟨[], [⟨2, 64, 1⟩]⟩,
    ⟨[⟨1, 1, 2⟩], [⟨0, 64, 2⟩]⟩⟩

theorem twoParams_consts {setList : List (Int × Nat × Int) → List (Int × Nat × Int)}
    (hset : ∀ l, (setList l).Perm l.dedup) : chunkConsts setList twoParamsE 0 = some twoParamsC := by
  have h0 : setList [] = [] := List.perm_nil.mp (hset [])
  have h1 : ∀ v, setList [v] = [v] := fun v => by
    have := hset [v]
    rw [List.dedup_cons_of_notMem (by simp), List.dedup_nil] at this
    exact List.perm_singleton.mp this
  have hp : twoParamsE.postChunk twoParamsE.nminargs = .bin .mul (.bin .mul (.var 1 1 2) (.var 3 1 0)) (.var 4 1 3) := by
    decide +kernel
  have hn : twoParamsE.nminargs = 4 := by decide +kernel
  have hf : twoParamsE.chunkedFormulas dimchunk = [(.bin .scalprod (.var 0 64 2) (.var 2 64 1), 146)] := by
    decide +kernel
  have hl : twoParamsE.chunkedFormulas 18 = [(.bin .scalprod (.var 0 18 2) (.var 2 18 1), 146)] := by
    decide +kernel
  unfold chunkConsts
  rw [hf]
  simp only [hp, show 146 - (1 + (146 - 1) / dimchunk - 1) * dimchunk = 18 by decide, hl]
  simp [hn, twoParamsC, chunkVars, ofCat, Expr.vars, Expr.chunkedVars, Expr.notchunkedVars, Bin.vectorized, h0, h1,
    toInfo, dimchunk]

theorem chunkSub_pp (K : ChunkCall ℝ) (f : Expr) (d i tile js : Nat) (ts : List Nat) (c : Nat) (m : ChunkMem ℝ) :
    (chunkSub id id K f d i tile js ts c m).pp =
      loadChunks (K.C.p.chunked.map (·.ind)) d K.C.dimOrg K.args c 0 m.pp := rfl

theorem chunkSub_s (K : ChunkCall ℝ) (f : Expr) (d i tile js : Nat) (ts : List Nat) (c : Nat) (m : ChunkMem ℝ) :
    (chunkSub id id K f d i tile js ts c m).s = m.s := rfl

theorem twoParams_post {M : CMath} (hM : M.Exact) (junk : Expr → Nat → ℝ) (xi yj pp fout : Mem ℝ) (h : pp 0 = 0) :
    runCode M junk twoParamsC.post (chunkTable id (twoParamsC.nminargs + 1) [(twoParamsC.i.all dimchunk, xi),
      (twoParamsC.j.all dimchunk, yj), (twoParamsC.p.all dimchunk, pp),
      ([⟨twoParamsC.nminargs, twoParamsC.fun_.dim, 3⟩], fout)]) 0 = 0 := by
  let env : Env := fun p _ => if p = 1 then pp 0 else if p = 3 then xi 0 else fout 0
  rw [runCode_ok hM (env := env)]
  · simp [twoParamsC, vec, Expr.val, binVal, Expr.dim, Bin.dim, env, h, cst]
  · simp [twoParamsC, Expr.WF, Bin.accept, Expr.dim, Bin.dim]; decide
  · simp [twoParamsC, Expr.FactFree]
  · simp [twoParamsC, Expr.Def, binDef]
  · simp [twoParamsC, Table.Holds, Expr.free, chunkTable, ChunkVars.all, vec, env, Expr.dim, Bin.dim]

/-- In the chunked kernel, row 0 of the result for `twoParams` is 0: the parameter `s` is overwritten by `q[128]`. -/
theorem twoParams_thread {M : CMath} (hM : M.Exact) (junk : Expr → Nat → ℝ) {B : Nat} (hB : 0 < B)
    (ord : Nat → Nat → List Nat) (mem : Nat → Mem ℝ) (out : Mem ℝ) :
    chunkThread id id (sumRed 1) (directScheme (sumRed 1)) ⟨twoParamsC, M, junk, twoParamsArgs, B, 1⟩ ord mem 0 out 0
      = 0 := by
  unfold chunkThread
  simp only
  unfold chunkTiles
  rw [if_pos (show 0 < 1 by omega)]
  unfold chunkTiles
  unfold chunkTile
  simp only
  have hmin : min B (1 - 0) = 1 := by omega
  have hpp : ∀ (K : ChunkCall ℝ) (ts : List Nat) (m : ChunkMem ℝ), K.C = twoParamsC → K.args = twoParamsArgs →
      (chunkSub id id K twoParamsC.funLast twoParamsC.dimLast 0 0 0 ts (twoParamsC.nchunks - 1) m).pp 0 = 0 := by
    intro K ts m hK ha
    have := loadVars_spec (fun p q => twoParamsArgs p (0 * 146 + 2 * dimchunk + q)) 0 [] ⟨0, 18, 2⟩ [] m.pp
      (w := 0) (by decide)
    rw [chunkSub_pp, hK, ha, loadChunks_eq twoParamsC.p]
    exact this.trans (by simp [twoParamsArgs, dimchunk])
  generalize hm : chunkSub id id _ twoParamsC.funLast _ _ _ _ _ _ _ = m
  have hm0 : m.pp 0 = 0 := by rw [← hm]; exact hpp _ _ _ rfl rfl
  have hs : m.s.1 = vectFill 1 (mem 2) 0 := by
    rw [← hm, chunkSub_s]
    refine forRange_inv (P := fun _ (m' : ChunkMem ℝ) => m'.s.1 = vectFill 1 (mem 2) (0 : ℝ)) _ _ _ rfl
      fun _ _ _ h => by rw [chunkSub_s]; exact h
  rw [hmin]
  simp only [forRange, List.range_one, List.foldl_cons, List.foldl_nil, directScheme, sumRed, id]
  rw [vectCopy_apply, if_pos (by omega), vectApply_apply, if_pos (by omega), hs, vectFill_apply, if_pos (by omega),
    zero_add]
  exact twoParams_post hM junk _ _ _ _ hm0

/-- **C21 fails** for formulas with a parameter inside of the sum and another one outside: the chunks of the first
one are loaded over the second one.  Here all executions return 0 for a sum that is 1. -/
theorem not_C21_params : chunkMode twoParamsE = true ∧ twoParamsE.FactFree ∧
    Setting twoParams twoParamsE 0 1 1 twoParamsArgs (fun _ _ => twoParamsEnv) ∧
    ∑ _j ∈ range 1, twoParams.val twoParamsEnv 0 = 1 ∧
    ∀ M : CMath, M.Exact → ∀ junk out,
      (∃ out', ExecChunks id id (sumRed 1) (directScheme (sumRed 1)) M junk twoParamsE 0 1 1 twoParamsArgs out out') ∧
      ∀ out', ExecChunks id id (sumRed 1) (directScheme (sumRed 1)) M junk twoParamsE 0 1 1 twoParamsArgs out out' →
        out' 0 = 0 := by
  have hmode : chunkMode twoParamsE = true := by decide +kernel
  refine ⟨hmode, by simp [Expr.FactFree], twoParams_setting, by simp only [twoParams_val]; simp,
    fun M hM junk out => ⟨chunks_exists _ _ _ _ _ _ hmode _ _ _ _ _, ?_⟩⟩
  rintro out' ⟨setList, hset, C, hC, B, hB, ord, hord, mem, sched, hsched⟩
  rw [twoParams_consts hset] at hC
  cases hC
  have hmem : (0, 0) ∈ sched := by
    rw [hsched.mem_iff]
    refine List.mem_product.mpr ?_
    refine ⟨List.mem_range.mpr ?_, List.mem_range.mpr hB⟩
    simp only [launchSizes, gridSize]
    rcases Nat.lt_or_ge 1 B with h | h
    · simp [Nat.mod_eq_of_lt h]
    · obtain rfl : B = 1 := by omega
      simp
  clear hsched
  unfold gpuChunks
  induction sched using List.reverseRecOn generalizing out with
  | nil => simp at hmem
  | append_singleton l a ih =>
    rw [List.foldl_append]
    simp only [List.foldl_cons, List.foldl_nil]
    split
    · next hi =>
      have hi : a.1 * B + a.2 = 0 := by simpa [launchSizes] using hi
      simp only [hi, Nat.zero_mul]
      rw [onSlice_apply, if_pos le_rfl]
      exact twoParams_thread hM junk hB _ _ _
    · next hi =>
      have : (0, 0) ∈ l := by
        rcases List.mem_append.mp hmem with h | h
        · exact h
        · rw [List.mem_singleton] at h
          subst h
          simp [launchSizes] at hi
      exact ih out this

/-- `|x - s|^2`, with a number `s`: the number is inside of the sum only. -/
abbrev innerScalar : Term := .sqDist (.var 0 200 0) (.var 1 1 1)

abbrev innerScalarE : Expr := .un .sum (.un .square (.bin .sub (.var 0 200 0) (.var 1 1 1)))

/-- **C21 fails** for formulas with a variable of dimension 1 that is inside of the sum only: it is not loaded, and
the code for a chunk cannot be generated, since its entry of the table of variables is empty. -/
theorem not_C21_scalar : chunkMode innerScalarE = true ∧ Runs innerScalar innerScalarE ∧
    ∀ setList : List (Int × Nat × Int) → List (Int × Nat × Int), (∀ l, (setList l).Perm l.dedup) →
      ∃ C, chunkConsts setList innerScalarE 0 = some C ∧
        ∀ (M : CMath) (junk : Expr → Nat → ℝ) (xi yj pp : Mem ℝ),
          C.fun_.code M junk (newArr junk C.fun_) (chunkTable id C.nminargs
            [(C.i.all dimchunk, xi), (C.j.all dimchunk, yj), (C.p.all dimchunk, pp)]) = .error .table := by
  refine ⟨by decide +kernel, ⟨20, innerScalarE, by decide +kernel, .inl rfl⟩, fun setList hset => ?_⟩
  have h0 : setList [] = [] := List.perm_nil.mp (hset [])
  have h1 : ∀ v, setList [v] = [v] := fun v => by
    have := hset [v]
    rw [List.dedup_cons_of_notMem (by simp), List.dedup_nil] at this
    exact List.perm_singleton.mp this
  have hn : innerScalarE.nminargs = 2 := by decide +kernel
  have hp : innerScalarE.postChunk 2 = .var 2 1 3 := by decide +kernel
  have hf : innerScalarE.chunkedFormulas dimchunk =
      [(.un .sum (.un .square (.bin .sub (.var 0 64 0) (.var 1 1 1))), 200)] := by decide +kernel
  have hl : innerScalarE.chunkedFormulas 8 = [(.un .sum (.un .square (.bin .sub (.var 0 8 0) (.var 1 1 1))), 200)] := by
    decide +kernel
  unfold chunkConsts
  rw [hf]
  simp only [show 200 - (1 + (200 - 1) / dimchunk - 1) * dimchunk = 8 by decide, hl]
  refine ⟨_, rfl, fun M junk xi yj pp => ?_⟩
  simp only [hn, hp]
  simp [chunkVars, ofCat, Expr.vars, Expr.chunkedVars, Expr.notchunkedVars, Bin.vectorized, Un.vectorized, Expr.dim,
    Bin.dim, Un.dim, h0, h1, toInfo, ChunkVars.all, chunkTable, Expr.code, evalArg, Table.look]
  rfl

end Verif
