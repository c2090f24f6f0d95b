import Verif.Proofs.Zero
import Verif.Props.BackwardCall

/-!
# C64. Reductions equal to zero are arrays of zeros
-/

namespace Verif

open Finset Spec

/-- **C64**, which calls use the special routine: sums always have a routine, and it is the special one exactly when the
formula is the constant zero. -/
theorem C64_routine (e : Expr) (tagI : Nat) :
    ∃ r, (RedExpr.sum e tagI).routine = .ok r ∧ (r = .assignZero ↔ ∃ d, e = .zero d) := by
  unfold RedExpr.routine
  simp only [RedExpr.hasDimred, Bool.not_true, Bool.false_eq_true, if_false]
  cases e <;> simp [RedExpr.tagZero]

/-- **C64**: for every accepted call, with or without batch dimensions and ranges, with any compiled routine and content of
the memory, every entry of the output is 0 and nothing else is written. -/
theorem C64_zero {V : Type} [Zero V] {aliases : List Alias.Str} {shapes : List (List Nat)} {tagI d nx ny : Nat}
    {shape : List Nat} (_ : Alias.callGenred aliases shapes tagI d = some (nx, ny, shape)) (callKeops : Mem V → Mem V)
    (out : Mem V) : ∃ r, (RedExpr.sum (.zero d) tagI).routine = .ok r ∧
      ∀ q, genredOut r shape callKeops out q = if q < shape.prod then 0 else out q :=
  ⟨_, rfl, fun _ => rfl⟩

/-- **C64**, other formulas: the compiled routine is called. -/
theorem C64_other {V : Type} [Zero V] {e : Expr} (he : ∀ d, e ≠ .zero d) (tagI : Nat) (shape : List Nat)
    (callKeops : Mem V → Mem V) (out : Mem V) : ∃ r, (RedExpr.sum e tagI).routine = .ok r ∧
      genredOut r shape callKeops out = callKeops out := by
  obtain ⟨r, hr, h⟩ := C64_routine e tagI
  refine ⟨r, hr, ?_⟩
  cases r with
  | reduce => rfl
  | assignZero => exact absurd (h.mp rfl) (by simpa using he)

/-- **C64**, the routine compiled for the CPU: for every accepted call, with or without batch dimensions and ranges, every entry of the output is 0 and
nothing else is written. -/
theorem C64_cpu {V : Type} [Zero V] {aliases : List Alias.Str} {shapes : List (List Nat)} {tagI d nx ny : Nat}
    {shape : List Nat} (h : Alias.callGenred aliases shapes tagI d = some (nx, ny, shape)) {out out' : Mem V}
    (he : CpuZero d shape out out') (p : Nat) : out' p = if p < shape.prod then 0 else out p := by
  obtain ⟨rows, hr⟩ := he
  rw [cpuAssignZero_rows (n := trueNx shape) (fun i => by rw [hr.mem_iff, List.mem_range]), trueNx_eq]
  have : ∃ l, shape = l ++ [d] := by
    unfold Alias.callGenred at h
    split at h
    · cases h
    · split at h
      · cases h
      · simp only [Option.some.injEq, Prod.mk.injEq] at h
        rw [← h.2.2]
        unfold shapeOutPy
        split
        · exact ⟨_ ++ [_], by rw [List.append_assoc]; rfl⟩
        · exact ⟨[_], rfl⟩
  obtain ⟨l, rfl⟩ := this
  simp

/-- **C64**, the routine compiled for the GPU: exactly the rows of the first batch are set to 0. -/
theorem C64_gpu_rows {V : Type} [Zero V] {aliases : List Alias.Str} {shapes : List (List Nat)} {tagI d nx ny : Nat}
    {shape : List Nat} (_ : Alias.callGenred aliases shapes tagI d = some (nx, ny, shape)) {out out' : Mem V}
    (he : GpuZero d shapes nx ny tagI out out') (p : Nat) :
    out' p = if p < (if tagI = 1 then ny else nx) * d then 0 else out p := by
  rw [gpuZero_apply he]
  unfold launchSizes
  split <;> rfl

/-- **C64**, the routine compiled for the GPU, without batch dimensions: every entry of the output is 0 and nothing else is written. -/
theorem C64_gpu_partial {V : Type} [Zero V] {aliases : List Alias.Str} {shapes : List (List Nat)} {tagI d nx ny : Nat}
    {shape : List Nat} (h : Alias.callGenred aliases shapes tagI d = some (nx, ny, shape)) (ht : tagI < 2)
    (hb : ∀ s ∈ shapes, s.length ≤ 2) {out out' : Mem V} (he : GpuZero d shapes nx ny tagI out out') (p : Nat) :
    out' p = if p < shape.prod then 0 else out p := by
  rw [C64_gpu_rows h he]
  have hs : shape.prod = (if tagI = 1 then ny else nx) * d := by
    unfold Alias.callGenred at h
    split at h
    · cases h
    · split at h
      · cases h
      · simp only [Option.some.injEq, Prod.mk.injEq] at h
        obtain ⟨h1, h2, h3⟩ := h
        subst h1 h2
        have hm : ∀ (l : List Nat) a, a ≤ 2 → (∀ x ∈ l, x ≤ 2) → l.foldl max a ≤ 2 := by
          intro l
          induction l with
          | nil => intro a ha _; exact ha
          | cons x xs ih =>
            intro a ha hx
            exact ih _ (Nat.max_le.mpr ⟨ha, hx x (by simp)⟩) fun y hy => hx y (by simp [hy])
        have h0 : (shapes.map List.length).foldl max 0 - 2 = 0 := by
          have := hm (shapes.map List.length) 0 (by omega) (by simpa using hb)
          omega
        rw [h0] at h3
        rw [← h3]
        have : tagI = 0 ∨ tagI = 1 := by omega
        rcases this with rfl | rfl <;> simp [shapeOutPy]
  rw [hs]

/-- The routine compiled for the GPU does not write all rows with batch dimensions: for the sum of the formula zero on two
batches of three points, the output has 6 rows, and only the first three are written, whatever the schedule.  (The Python code
does not call this routine: `C64_zero`.) -/
theorem C64_gpu_batch :
    ∃ (aliases : List Alias.Str) (shapes : List (List Nat)),
      Alias.callGenred aliases shapes 0 1 = some (3, 4, [2, 3, 1]) ∧
      (RedExpr.sum (.zero 1) 0).routine = .ok .assignZero ∧
      ∀ out out' : Mem ℝ, GpuZero 1 shapes 3 4 0 out out' → ∀ p, 3 ≤ p → out' p = out p := by
  refine ⟨["x=Vi(1)".toList, "y=Vj(1)".toList], [[2, 3, 1], [2, 4, 1]], by decide +kernel, rfl, fun out out' h p hp => ?_⟩
  rw [gpuZero_apply h, if_neg]
  show ¬ p < 3 * 1
  omega

/-- **C64** does not hold for arg reductions: their gradients and differentials are zero reductions, for which no code can be
generated. -/
theorem not_C64_arg (f : Expr) (d tagI n : Nat) (v : VarId) (g f0 : Expr) :
    (∃ r, (RedExpr.arg f d tagI).diffT n v g f0 = .ok r ∧ r.routine = .error .attribute) ∧
    ∃ r, (RedExpr.arg f d tagI).diff n v g f0 = .ok r ∧ r.routine = .error .attribute :=
  ⟨⟨_, rfl, rfl⟩, ⟨_, rfl, rfl⟩⟩

/-- **C64**, the special routine agrees with the general one: for the formula zero, every execution of the reduction,
with any scheme, writes zeros too.  So the properties of executions (C52, C63) hold for the special routine. -/
theorem C64_same (d m n tagI : Nat) (hd : 0 < d) (ht : tagI < 2) (args : Nat → Nat → ℝ) (sch : SumScheme) :
    ∃ S, getScheme (sumRed (V := ℝ) d) sch = some S ∧ ∀ M : CMath, M.Exact → ∀ junk out out',
      Exec (sumRed d) S ((Expr.zero d).call id id M junk tagI m n args) out out' →
      ∀ q < outRows tagI m n * d, out' q = 0 := by
  obtain ⟨S, hS, h⟩ := sum_exec (l := []) (args := args) (r := .zero d) (axis := tagI) (m := m) (n := n)
    ⟨by simp, by simp, by simp⟩ hd trivial (by simp [Expr.vars]) ht (fun _ _ _ _ => trivial) sch
  refine ⟨S, hS, fun M hM junk out out' he q hq => ?_⟩
  have h1 := h M hM junk out out' he (q / d) (Nat.div_lt_of_lt_mul (by rwa [Nat.mul_comm])) (q % d) (Nat.mod_lt _ hd)
  have h2 : q / d * d + q % d = q := Nat.div_add_mod' q d
  simp only [Expr.dim] at h1
  rw [h2] at h1
  rw [h1]
  simp [sumRow, Expr.val]

/-- **C64**, gradients: when the gradient formula with respect to an argument is zero, the outputs of the call, and every
loss, have derivative 0 with respect to this argument: the array of zeros is the right answer.

Missing: the restrictions of C63. -/
theorem C64_grad_partial {t : Term} {e : Expr} {v : VarId} {tagI axis m n nargs d : Nat} {args : Nat → Nat → ℝ}
    (h : BackSetting t e v tagI m n nargs args) (G : Nat → ℝ)
    (hr : RedGrads (.sum e tagI) v (etaVar nargs e.dim tagI) (resVar nargs e.dim tagI) (.sum (.zero d) axis))
    (sch : SumScheme) :
    d = v.dim ∧ ∃ S, getScheme (sumRed (V := ℝ) e.dim) sch = some S ∧
      ∀ M : CMath, M.Exact → ∀ junk (δ : Nat → ℝ) (out₀ out : ℝ → Mem ℝ),
        (∀ τ, Exec (sumRed e.dim) S (e.call id id M junk tagI m n (moved args v.ind.toNat δ τ)) (out₀ τ) (out τ)) →
        HasDerivAt (fun τ => ∑ i ∈ range (outRows tagI m n), ∑ k ∈ range e.dim,
          G (i * e.dim + k) * out τ (i * e.dim + k)) 0 0 := by
  obtain ⟨S, Sb, hS, hSb, hd, hm⟩ := C63_sum_partial h G (fun _ => 0) hr sch .direct
  simp only [Expr.dim] at hd hSb hm
  subst hd
  refine ⟨rfl, S, hS, fun M hM junk δ out₀ out hex => ?_⟩
  have hcat := h.inputs.cat _ h.var
  simp only at hcat
  have hvd : 0 < v.dim := term_vars_pos h.pos _ h.var
  have hax : axis = if v.cat = 1 then 1 else 0 := by
    obtain ⟨N, hr⟩ := hr
    simp only [RedExpr.diffT, sumDiffT] at hr
    obtain ⟨r', h1, h2⟩ := bind_ok' hr
    cases h2
    rcases hcat with h | h | h <;> simp [VarId.axis, h]
  have hrows : rowsOf v m n = outRows axis m n := by
    rw [hax]
    rcases hcat with h | h | h <;> simp [h, outRows, rowsOf]
  obtain ⟨g, hg⟩ := exec_exists_cpu (sumRed v.dim) Sb
    ((Expr.zero v.dim).call id id M junk axis m n (gradArgs nargs args G fun _ => 0)) (fun _ => 0)
  obtain ⟨Sz, hSz, hz⟩ := C64_same v.dim m n axis hvd (by rw [hax]; split <;> omega)
    (gradArgs nargs args G fun _ => 0) .direct
  rw [hSb] at hSz
  cases hSz
  have hg0 := hz M hM junk _ g hg
  obtain ⟨a, ha, hsh, hder⟩ := hm M hM junk _ g hg
  obtain ⟨a', ha', -, hadj⟩ := collapse_exec hcat (m := m) (n := n) (g := g)
  have haa : a = a' := by
    have := ha (List.replicate (v.ind.toNat + 1) v)
      (List.replicate (v.ind.toNat + 1) (tailShape v.cat (rowsOf v m n) v.dim))
      (fun _ => asArr (rowsOf v m n) v.dim g) (by simp) (by simp) rfl
    rw [backward, List.getElem?_zipWith] at this
    simp only [List.getElem?_replicate, Nat.lt_succ_self, if_true, Option.some.injEq] at this
    rw [ha'] at this
    exact (Option.some.inj this).symm
  have := hder δ out₀ out hex
  rw [haa, hadj] at this
  convert this using 1
  symm
  unfold dotGrad
  refine sum_eq_zero fun b hb => sum_eq_zero fun k _ => ?_
  have hb : b < rowsOf v m n := mem_range.mp hb
  rw [hrows] at hb
  simp only
  rw [hg0 _ (lt_of_lt_of_le (Nat.add_lt_add_left k.2 _) (by
    rw [← Nat.succ_mul]; exact Nat.mul_le_mul_right _ hb)), zero_mul]

/-! ## The hypotheses can be met -/

/-- Two batches of three points: a call is accepted, and the routine sets the 6 rows of 2 entries to 0 on the CPU. -/
example (out : Mem ℝ) : ∃ out',
    Alias.callGenred ["x=Vi(2)".toList, "y=Vj(2)".toList] [[2, 3, 2], [2, 4, 2]] 0 2 = some (3, 4, [2, 3, 2]) ∧
    CpuZero 2 [2, 3, 2] out out' ∧ (∀ p < 12, out' p = 0) ∧ ∀ p ≥ 12, out' p = out p := by
  have hc : Alias.callGenred ["x=Vi(2)".toList, "y=Vj(2)".toList] [[2, 3, 2], [2, 4, 2]] 0 2 =
      some (3, 4, [2, 3, 2]) := by decide +kernel
  have he : CpuZero 2 [2, 3, 2] out _ := .mk _ (List.Perm.refl _)
  refine ⟨_, hc, he, fun p hp => ?_, fun p hp => ?_⟩
  · rw [C64_cpu hc he, if_pos (by simpa using hp)]
  · rw [C64_cpu hc he, if_neg (by simp; omega)]

/-- On the GPU, without batch dimensions, for the gradient with respect to the variables `j`. -/
example (out : Mem ℝ) : ∃ out',
    Alias.callGenred ["x=Vi(2)".toList, "y=Vj(2)".toList] [[3, 2], [4, 2]] 1 2 = some (3, 4, [4, 2]) ∧
    GpuZero 2 [[3, 2], [4, 2]] 3 4 1 out out' ∧ (∀ p < 8, out' p = 0) ∧ ∀ p ≥ 8, out' p = out p := by
  have hc : Alias.callGenred ["x=Vi(2)".toList, "y=Vj(2)".toList] [[3, 2], [4, 2]] 1 2 = some (3, 4, [4, 2]) := by
    decide +kernel
  have he : GpuZero 2 [[3, 2], [4, 2]] 3 4 1 out _ := .mk 192 (by omega) _ (List.Perm.refl _)
  refine ⟨_, hc, he, fun p hp => ?_, fun p hp => ?_⟩
  · rw [C64_gpu_partial hc (by omega) (by simp) he, if_pos (by simpa using hp)]
  · rw [C64_gpu_partial hc (by omega) (by simp) he, if_neg (by simp; omega)]

/-- The call of `C64_gpu_batch` has executions. -/
example (out : Mem ℝ) : ∃ out', GpuZero 1 [[2, 3, 1], [2, 4, 1]] 3 4 0 out out' := ⟨_, .mk 192 (by omega) _ (List.Perm.refl _)⟩

/-- The gradient of `Σ_j Sign(x_i) * y_j` with respect to `x` is zero, and the special routine is used. -/
example : RedGrads (.sum (.bin .mul (.un .sign (.var 0 1 0)) (.var 1 1 1)) 0) ⟨0, 1, 0⟩ (etaVar 2 1 0) (resVar 2 1 0)
      (.sum (.zero 1) 0) ∧ (RedExpr.sum (.zero 1) 0).routine = .ok .assignZero ∧
    (RedExpr.sum (.var 0 1 0) 0).routine = .ok .reduce := ⟨⟨20, rfl⟩, rfl, rfl⟩

/-- … for any number of points, when no `x_i` is zero. -/
example (m n : Nat) (hm : 0 < m) (hn : 0 < n) (args : Nat → Nat → ℝ) (hx : ∀ p, args 0 p ≠ 0) :
    BackSetting (.bin .mul (.un .sign (.var 0 1 0)) (.var 1 1 1)) (.bin .mul (.un .sign (.var 0 1 0)) (.var 1 1 1))
      ⟨0, 1, 0⟩ 0 m n 2 args where
  pos := by simp [Term.Pos, Un.dim]
  inputs := ⟨by simp [Term.vars], by simp [Term.vars], by simp [Term.vars]⟩
  compiled := ⟨20, rfl⟩
  tag := by omega
  rows := ⟨hm, hn⟩
  var := by simp [Term.vars]
  count := by simp [Term.vars]
  plain := by simp [Expr.NoBroadcast, Expr.dim, Un.dim]
  smooth i _ j _ := by
    simp [Expr.Smooth, binSmooth, unSmooth, Expr.dim, Un.dim, Bin.dim, readEnv, Term.vars, Expr.val, cst, rowAt, hx]

end Verif
