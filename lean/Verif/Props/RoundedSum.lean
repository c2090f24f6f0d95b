import Verif.Props.Ranges
import Verif.Proofs.RoundedSum

/-!
# C73: rounding errors of sums

`Row … terms row`: `row` is a row of the output of a call, and `terms` are the values of the formula that are summed for
this row, as the program computes them. The theorems compare `row` with the exact sum of `terms`, when each addition is
rounded.
-/

namespace Verif.Rnd

open Spec

/-- `row` is a row of the output of a call with the reduction `R`, run as described by `ex` without ranges and by `rex`
with ranges or batch dimensions. `terms` are the values of the formula for this row, in the order of their indices. -/
inductive Row (R : Red ℝ) (ex : Problem ℝ → Mem ℝ → Mem ℝ → Prop) (rex : RProblem ℝ → Mem ℝ → Mem ℝ → Prop) :
    List (Mem ℝ) → Mem ℝ → Prop
  /-- No ranges and no batch dimension: row `i` is reduced over all the indices `j`. -/
  | dense {P : Problem ℝ} (hP : WfProblem P) {out out' : Mem ℝ} (he : ex P out out') {i : Nat}
      (hi : i < outRows P.tagI P.M P.N) :
      Row R ex rex ((List.range (redRows P.tagI P.M P.N)).map fun j => P.ev (env P.vars P.tagI P.args i j))
        (out'.shift (i * R.dim))
  /-- With ranges: row `i` of cluster `r` is reduced over the intervals of this cluster. -/
  | ranges {ev : (Nat → Option (Mem ℝ)) → Mem ℝ} {vars : List VarInfo} {tagI M N dimout rows : Nat} {args : Nat → Mem ℝ}
      {shapes : List (List Nat)} {u : RangesArr} (hw : WfVars vars) (ht : tagI < 2) (hev : EvLocal vars ev)
      (hb : NoBatch vars shapes) (ha : WfAxis (u.axis tagI)) {P : RProblem ℝ}
      (hP : rangeCall ev vars tagI args shapes M N dimout rows (some u) = some P) {out out' : Mem ℝ}
      (he : rex P out out') {r i : Nat} (hi : InCluster (u.axis tagI) r i) :
      Row R ex rex ((clusterList (u.axis tagI) r).map fun j => ev (env vars tagI args i j)) (out'.shift (i * R.dim))
  /-- With batch dimensions: row `i` of batch `idx` is reduced over all the indices `j` of this batch. -/
  | batch {ev : (Nat → Option (Mem ℝ)) → Mem ℝ} {vars : List VarInfo} {tagI nb M N dimout rows : Nat}
      {args : Nat → Mem ℝ} {shapes : List (List Nat)} {full : Nat → Nat} (hw : WfVars vars) (ht : tagI < 2)
      (hev : EvLocal vars ev) (hnb : 0 < nb) (hex : ∃ v ∈ vars, v.cat < 2)
      (hs : BatchShapes vars (fun a => shapes.getD a []) nb full M N)
      (h32 : ∀ v ∈ vars, batchCount nb (fun b => (shapes.getD v.ind []).getD b 0) * blockRows M N v.cat < 2 ^ 31)
      {P : RProblem ℝ} (hP : rangeCall ev vars tagI args shapes M N dimout rows none = some P) {out out' : Mem ℝ}
      (he : rex P out out') {idx : Nat → Nat} (hidx : ∀ b < nb, idx b < full b) {i : Nat} (hi : i < outRows tagI M N) :
      Row R ex rex ((List.range (redRows tagI M N)).map fun j =>
          ev (env vars tagI (batchArgs vars (fun a => shapes.getD a []) nb M N idx args) i j))
        (out'.shift ((ravel nb full idx * outRows tagI M N + i) * R.dim))

/-- The executions without ranges on the CPU (`mapreduce/cpu/CpuReduc.py`), a part of `Exec`. -/
def CpuExec (R : Red ℝ) (S : Scheme ℝ) (P : Problem ℝ) (out out' : Mem ℝ) : Prop :=
  ∃ (accJ tmpJ : Nat → Mem ℝ) (rows : List Nat), rows.Perm (List.range P.nx) ∧
    out' = cpuConv R S P.ev P.vars P.tagI P.ny P.args accJ tmpJ rows out

/-- The executions with ranges or batch dimensions on the CPU (`mapreduce/cpu/CpuReduc_ranges.py`), a part of
`RExec`. -/
def CpuRExec (R : Red ℝ) (S : Scheme ℝ) (P : RProblem ℝ) (out out' : Mem ℝ) : Prop :=
  ∃ (junk : Nat → Nat → Mem ℝ) (order : Nat → List Nat), (∀ r < P.ax.nranges, (order r).Perm
      (List.range' (P.ax.rangesX (2 * r)) (P.ax.rangesX (2 * r + 1) - P.ax.rangesX (2 * r)))) ∧
    out' = cpuConvRanges R S P junk order out

/-- The exact sum of component `k`. -/
noncomputable def total (terms : List (Mem ℝ)) (k : Nat) : ℝ := (terms.map fun x => x k).sum

/-- The sum of the absolute values of component `k`. -/
noncomputable def absTotal (terms : List (Mem ℝ)) (k : Nat) : ℝ := (terms.map fun x => |x k|).sum

theorem Row.mono {R R' : Red ℝ} {ex ex' rex rex'} {terms : List (Mem ℝ)} {row : Mem ℝ} (hd : R.dim = R'.dim)
    (h1 : ∀ P o o', ex P o o' → ex' P o o') (h2 : ∀ P o o', rex P o o' → rex' P o o') (h : Row R ex rex terms row) :
    Row R' ex' rex' terms row := by
  cases h with
  | dense hP he hi => rw [hd]; exact .dense hP (h1 _ _ _ he) hi
  | ranges hw ht hev hb ha hP he hi => rw [hd]; exact .ranges hw ht hev hb ha hP (h2 _ _ _ he) hi
  | batch hw ht hev hnb hex hs h32 hP he hidx hi =>
    rw [hd]; exact .batch hw ht hev hnb hex hs h32 hP (h2 _ _ _ he) hidx hi

theorem Row.correct {R : Red ℝ} {S : Scheme ℝ} {A B G} (hL : LawfulScheme True R S A B G) (hf : FinLocal R)
    {terms : List (Mem ℝ)} {row : Mem ℝ} (h : Row R (Exec R S) (RExec R S) terms row) :
    ∃ (xs : List (Nat × Mem ℝ)) (acc : Mem ℝ), xs.map (·.2) = terms ∧ A xs acc ∧
      ∀ k < R.dim, ∀ o, row k = R.fin acc o k := by
  cases h with
  | dense hP he hi =>
    obtain ⟨acc, hacc, ho⟩ := (exec_correct hL hf hP (.inl trivial) he).1 _ hi
    exact ⟨_, acc, by simp [rowItems, items, Function.comp_def], hacc, ho⟩
  | @ranges ev vars tagI M N dimout rows args shapes u hw ht hev hb ha P hP out out' he r i hi =>
    obtain ⟨P', hP', e1, e2, e3, e4, e5, e6, -⟩ := rangeCall_user (args := args) (tagI := tagI) (ev := ev) hb M N dimout
      rows u
    obtain rfl : P = P' := Option.some.inj (hP.symm.trans hP')
    obtain ⟨acc, hacc, ho⟩ := user_correct hL hf (by rw [e2]; exact hw) (by rw [e3]; exact ht)
      (by rw [e1, e2]; exact hev) e5 (by rw [e6]; exact ha) he (by rw [e6]; exact hi) (.inl trivial)
    rw [e1, e2, e3, e4, e6] at hacc
    exact ⟨_, acc, by simp [Function.comp_def], hacc, ho⟩
  | @batch ev vars tagI nb M N dimout rows args shapes full hw ht hev hnb hex hs h32 P hP out out' he idx hidx i hi =>
    obtain ⟨P', hP', hB⟩ := rangeCall_batch (ev := ev) (args := args) hw ht hs hex hnb dimout rows
    obtain rfl : P = P' := Option.some.inj (hP.symm.trans hP')
    obtain ⟨acc, hacc, ho⟩ := batch_correct hL hf hB hw ht hev hnb hs h32 (.inl trivial) he hidx hi
    exact ⟨_, acc, by simp [items, Function.comp_def], hacc, ho⟩

theorem tot_eq {xs : List (Nat × Mem ℝ)} {terms : List (Mem ℝ)} (h : xs.map (·.2) = terms) (k : Nat) :
    tot k xs = total terms k ∧ mag k xs = absTotal terms k ∧ xs.length = terms.length := by
  subst h
  simp [tot, mag, total, absTotal, Function.comp_def]

section

variable {u v : ℝ} {r rf ra : ℝ → ℝ} {d : Nat} {S : Scheme ℝ} {terms : List (Mem ℝ)} {row : Mem ℝ}

/-- **C73**, accumulators of the type of the data, `direct_sum` and `block_sum`: on every backend and for every
schedule, with and without ranges and batch dimensions, a sum of `n` terms is computed with an error of at most
`((1 + u) ^ n - 1)` times the sum of the absolute values of the terms. -/
theorem C73_same (h : Rounding u r) {sch : SumScheme} (hsch : sch ≠ .kahan)
    (hS : getScheme (sumRed r r sch d) sch = some S)
    (hrow : Row (sumRed r r sch d) (Exec (sumRed r r sch d) S) (RExec (sumRed r r sch d) S) terms row)
    {k : Nat} (hk : k < d) : |row k - total terms k| ≤ ((1 + u) ^ terms.length - 1) * absTotal terms k := by
  have key : ∀ (xs : List (Nat × Mem ℝ)) (acc : Mem ℝ), xs.map (·.2) = terms → ErrAcc u r d xs acc →
      (∀ k < d, ∀ o, row k = (sumRed r r sch d).fin acc o k) →
      |row k - total terms k| ≤ ((1 + u) ^ terms.length - 1) * absTotal terms k := by
    intro xs acc hx ha ho
    obtain ⟨e1, e2, e3⟩ := tot_eq hx k
    obtain ⟨h1, h2⟩ := ha k hk
    rw [ho k hk row]
    simp only [sumRed, vectCopy_apply, hk, if_true, h1]
    rw [← e1, ← e2, ← e3]
    exact h2
  cases sch with
  | direct =>
    obtain rfl := Option.some.inj hS
    obtain ⟨xs, acc, hx, ha, ho⟩ := hrow.correct (direct_lawful h d) (finLocal _ _ _ _)
    exact key xs acc hx ha ho
  | block =>
    obtain rfl := Option.some.inj hS
    obtain ⟨xs, acc, hx, ha, ho⟩ := hrow.correct (block_lawful h h h.idem le_rfl d) (finLocal _ _ _ _)
    exact key xs acc hx ha ho
  | kahan => exact absurd rfl hsch

/-- **C73**, accumulators of a wider type, `direct_sum`: the terms are added in the wider type, and the result is rounded
once to the type of the data. -/
theorem C73_wide_direct (hf : Rounding u rf) (ha : Rounding v ra)
    (hS : getScheme (sumRed rf ra .direct d) .direct = some S)
    (hrow : Row (sumRed rf ra .direct d) (Exec (sumRed rf ra .direct d) S) (RExec (sumRed rf ra .direct d) S) terms row)
    {k : Nat} (hk : k < d) :
    |row k - total terms k| ≤ ((1 + v) ^ terms.length * (1 + u) - 1) * absTotal terms k := by
  obtain rfl := Option.some.inj hS
  obtain ⟨xs, acc, hx, hacc, ho⟩ := hrow.correct (direct_lawful ha d) (finLocal _ _ _ _)
  obtain ⟨e1, e2, e3⟩ := tot_eq hx k
  rw [ho k hk row]
  simp only [sumRed, vectCopy_apply, hk, if_true]
  rw [← e1, ← e2, ← e3]
  exact Err.conv hf (hacc k hk).2

/-- **C73**, accumulators of a wider type, `block_sum`: in general the bound is the one of the type of the data. -/
theorem C73_wide_block (hf : Rounding u rf) (ha : Rounding v ra) (hw : Wider rf ra) (hv : v ≤ u)
    (hS : getScheme (sumRed rf ra .block d) .block = some S)
    (hrow : Row (sumRed rf ra .block d) (Exec (sumRed rf ra .block d) S) (RExec (sumRed rf ra .block d) S) terms row)
    {k : Nat} (hk : k < d) : |row k - total terms k| ≤ ((1 + u) ^ (terms.length + 1) - 1) * absTotal terms k := by
  obtain rfl := Option.some.inj hS
  obtain ⟨xs, acc, hx, hacc, ho⟩ := hrow.correct (block_lawful hf ha hw hv d) (finLocal _ _ _ _)
  obtain ⟨e1, e2, e3⟩ := tot_eq hx k
  rw [ho k hk row]
  simp only [sumRed, vectCopy_apply, hk, if_true]
  rw [← e1, ← e2, ← e3, pow_succ]
  exact Err.conv hf (hacc k hk).2

/-- **C73**, `kahan_scheme`: the error does not grow with the number `n` of terms, as long as `n * u ≤ 1`, up to a term of
the second order. -/
theorem C73_kahan (h : Rounding u r) (hu : u ≤ 1 / 64) (hS : getScheme (sumRed r r .kahan d) .kahan = some S)
    (hrow : Row (sumRed r r .kahan d) (Exec (sumRed r r .kahan d) S) (RExec (sumRed r r .kahan d) S) terms row)
    (hn : terms.length * u ≤ 1) {k : Nat} (hk : k < d) :
    |row k - total terms k| ≤ (8 * u + 17 * terms.length * u ^ 2) * absTotal terms k := by
  obtain rfl := Option.some.inj hS
  obtain ⟨xs, acc, hx, ⟨tmp, h1, h2⟩, ho⟩ := hrow.correct (kahan_lawful h hu d) (finLocal _ _ _ _)
  obtain ⟨e1, e2, e3⟩ := tot_eq hx k
  rw [← e3] at hn
  obtain ⟨i1, i2⟩ := h1 hn k hk
  rw [ho k hk row]
  simp only [sumRed, vectCopy_apply, hk, if_true, h2 k hk]
  rw [← e1, ← e2, ← e3]
  have e : acc k - tot k xs = (acc k - tmp k - tot k xs) + tmp k := by ring
  rw [e]
  have := abs_add_le (acc k - tmp k - tot k xs) (tmp k)
  linarith

/-- **C73**, integers: if the terms are integers, and the sum of their absolute values is at most `N`, then the sum is
exact, for all summation schemes and types that represent the integers up to `N`. -/
theorem C73_integers {N : ℝ} (hf : ∀ m : ℤ, |(m : ℝ)| ≤ N → rf m = m) (ha : ∀ m : ℤ, |(m : ℝ)| ≤ N → ra m = m)
    {sch : SumScheme} (hS : getScheme (sumRed rf ra sch d) sch = some S)
    (hrow : Row (sumRed rf ra sch d) (Exec (sumRed rf ra sch d) S) (RExec (sumRed rf ra sch d) S) terms row)
    (hint : ∀ k < d, (∀ x ∈ terms, ∃ m : ℤ, x k = m) ∧ absTotal terms k ≤ N) {k : Nat} (hk : k < d) :
    row k = total terms k := by
  obtain ⟨S', B, G, hS', hL⟩ := int_lawful hf ha sch d
  obtain rfl : S = S' := Option.some.inj (hS.symm.trans hS')
  obtain ⟨xs, acc, hx, hacc, ho⟩ := hrow.correct hL (finLocal _ _ _ _)
  have hi : IntTerms N d xs := fun k hk => by
    obtain ⟨-, e2, -⟩ := tot_eq hx k
    refine ⟨fun x hx' => (hint k hk).1 x.2 ?_, by rw [e2]; exact (hint k hk).2⟩
    rw [← hx]
    exact List.mem_map_of_mem hx'
  rw [ho k hk row]
  simp only [sumRed, vectCopy_apply, hk, if_true, hacc hi k hk, hi.fix hf hk]
  exact (tot_eq hx k).1

/-- **C73**, the CPU without ranges and batch dimensions, `block_sum` (the default): the number of rounded additions
behind each term is of the order of the square root of the number `n ≥ 10` of terms. -/
theorem C73_cpu_block (hf : Rounding u rf) (ha : Rounding v ra)
    (hS : getScheme (sumRed rf ra .block d) .block = some S)
    (hrow : Row (sumRed rf ra .block d) (CpuExec (sumRed rf ra .block d) S) (fun _ _ _ => False) terms row)
    (hn : 10 ≤ terms.length) {k : Nat} (hk : k < d) :
    |row k - total terms k| ≤
      ((1 + u) ^ Nat.sqrt terms.length * (1 + v) ^ (Nat.sqrt terms.length + 3) * (1 + u) - 1) * absTotal terms k := by
  obtain rfl := Option.some.inj hS
  have hu := hf.nonneg
  have hv := ha.nonneg
  cases hrow with
  | @dense P hP out out' he i hi =>
    obtain ⟨accJ, tmpJ, rows, hrows, rfl⟩ := he
    rw [List.length_map, List.length_range] at hn ⊢
    have hnd : rows.Nodup := hrows.nodup_iff.mpr List.nodup_range
    rw [← nx_eq hP] at hi
    have hmem : i ∈ rows := hrows.mem_iff.mpr (by simpa using hi)
    have hloc := finLocal rf ra .block d
    have := (foldl_onSlice_rows (d := d) (fun i => cpuRow (sumRed rf ra .block d)
      (blockScheme (sumRed rf ra .block d) (fun acc xi => vectApply d (fun a x => ra (a + x)) acc xi)) P.ny
      (fun j => P.ev (directTable P.vars P.tagI P.args i j)) (accJ i) (tmpJ i))
      (fun i o o' p hp => (hloc _ o o' p).1 hp) (fun i o p hp => (hloc _ o o p).2 hp) rows hnd out).1 i hmem k hk out
    obtain ⟨a, h1, h2, h3⟩ := cpuRow_blocks hf ha d P.ny (period_pos _)
      (fun j => P.ev (directTable P.vars P.tagI P.args i j)) (accJ i) (tmpJ i) out hk
    have hx : (items P.ny fun j => P.ev (directTable P.vars P.tagI P.args i j)).map (·.2) =
        (List.range (redRows P.tagI P.M P.N)).map fun j => P.ev (env P.vars P.tagI P.args i j) := by
      rw [← ny_eq hP]
      simp only [items, List.map_map, Function.comp_def]
      exact List.map_congr_left fun j _ => ev_direct hP i j
    obtain ⟨e1, e2, -⟩ := tot_eq hx k
    have h4 := Err.conv hf h1
    rw [← ny_eq hP] at hn ⊢
    have hle : (1 + u) ^ periodAccumulate P.ny * (1 + v) ^ (P.ny / periodAccumulate P.ny + 1) * (1 + u) ≤
        (1 + u) ^ Nat.sqrt P.ny * (1 + v) ^ (Nat.sqrt P.ny + 3) * (1 + u) := by
      have hp : periodAccumulate P.ny = Nat.sqrt P.ny := by
        unfold periodAccumulate
        rw [if_neg (by omega)]
      have hl := period_le hn
      rw [hp] at hl ⊢
      have : (1 + v) ^ (P.ny / Nat.sqrt P.ny + 1) ≤ (1 + v) ^ (Nat.sqrt P.ny + 3) :=
        pow_le_pow_right₀ (by linarith) (by omega)
      gcongr
    have h5 := h4.mono hle
    unfold Err at h5
    rw [e1, e2] at h5
    have e : Mem.shift (cpuConv (sumRed rf ra .block d) (blockScheme (sumRed rf ra .block d)
        (fun acc xi => vectApply d (fun a x => ra (a + x)) acc xi)) P.ev P.vars P.tagI P.ny P.args accJ tmpJ rows out)
        (i * (sumRed rf ra .block d).dim) k = rf a := this.trans h3
    rw [← ny_eq hP] at h5
    exact (congrArg (fun z => |z - _|) e).trans_le h5
  | ranges _ _ _ _ _ _ he _ => exact he.elim
  | batch _ _ _ _ _ _ _ _ he _ _ => exact he.elim

/-- **C73**, the CPU with ranges or batch dimensions, `block_sum`: the terms are added from left to right in the type of
the data. The type of the accumulators plays no role. -/
theorem C73_cpu_ranges (hf : Rounding u rf) (hw : Wider rf ra)
    (hS : getScheme (sumRed rf ra .block d) .block = some S)
    (hrow : Row (sumRed rf ra .block d) (fun _ _ _ => False) (CpuRExec (sumRed rf ra .block d) S) terms row)
    {k : Nat} (hk : k < d) : row k = (terms.map fun x => x k).foldl (fun s x => rf (s + x)) 0 := by
  obtain rfl := Option.some.inj hS
  have h : Row (sumRed rf rf .direct d) (Exec (sumRed rf rf .direct d) (directScheme (sumRed rf rf .direct d)))
      (RExec (sumRed rf rf .direct d) (directScheme (sumRed rf rf .direct d))) terms row := by
    refine Row.mono (R := sumRed rf ra .block d) rfl (fun _ _ _ h => False.elim h) (fun P o o' h => ?_) hrow
    obtain ⟨junk, order, ho, rfl⟩ := h
    rw [cpuConvRanges_block hf hw]
    exact .cpu junk order ho
  obtain ⟨xs, acc, hx, hacc, ho⟩ := h.correct (fold_lawful hf d) (finLocal _ _ _ _)
  obtain ⟨h1, h2⟩ := hacc k hk
  rw [ho k hk row]
  simp only [sumRed, vectCopy_apply, hk, if_true, h1]
  rw [h2, ← hx, List.map_map]
  rfl

/-- **C73**, the CPU without ranges, `block_sum`, less than 10 terms: the same. -/
theorem C73_cpu_few (hf : Rounding u rf) (hw : Wider rf ra)
    (hS : getScheme (sumRed rf ra .block d) .block = some S)
    (hrow : Row (sumRed rf ra .block d) (CpuExec (sumRed rf ra .block d) S) (fun _ _ _ => False) terms row)
    (hn : terms.length < 10) {k : Nat} (hk : k < d) :
    row k = (terms.map fun x => x k).foldl (fun s x => rf (s + x)) 0 := by
  obtain rfl := Option.some.inj hS
  cases hrow with
  | @dense P hP out out' he i hi =>
    obtain ⟨accJ, tmpJ, rows, hrows, rfl⟩ := he
    rw [List.length_map, List.length_range] at hn
    have hnd : rows.Nodup := hrows.nodup_iff.mpr List.nodup_range
    rw [← nx_eq hP] at hi
    have hmem : i ∈ rows := hrows.mem_iff.mpr (by simpa using hi)
    have hloc := finLocal rf ra .block d
    have := (foldl_onSlice_rows (d := d) (fun i => cpuRow (sumRed rf ra .block d)
      (blockScheme (sumRed rf ra .block d) (fun acc xi => vectApply d (fun a x => ra (a + x)) acc xi)) P.ny
      (fun j => P.ev (directTable P.vars P.tagI P.args i j)) (accJ i) (tmpJ i))
      (fun i o o' p hp => (hloc _ o o' p).1 hp) (fun i o p hp => (hloc _ o o p).2 hp) rows hnd out).1 i hmem k hk out
    rw [← ny_eq hP] at hn ⊢
    refine Eq.trans this ((cpuRow_few hf hw d hn _ _ _ _ hk).trans ?_)
    simp only [items, List.map_map, Function.comp_def]
    refine congrArg (List.foldl _ _) (List.map_congr_left fun j _ => ?_)
    rw [ev_direct hP i j]
  | ranges _ _ _ _ _ _ he _ => exact he.elim
  | batch _ _ _ _ _ _ _ _ he _ _ => exact he.elim

end

/-! ## `float32` and `float64` -/

/-- **C73** for `float32`: the bounds above hold with `u = 2 ^ (-24)`, `v = 2 ^ (-53)` and `N = 2 ^ 24`. -/
theorem C73_types : Rounding (1 / 2 ^ 24) (rnd 24) ∧ Rounding (1 / 2 ^ 53) (rnd 53) ∧ Wider (rnd 24) (rnd 53) ∧
    (∀ m : ℤ, |(m : ℝ)| ≤ 2 ^ 24 → rnd 24 m = m) ∧ ∀ m : ℤ, |(m : ℝ)| ≤ 2 ^ 53 → rnd 53 m = m := by
  refine ⟨rnd_rounding (by norm_num), rnd_rounding (by norm_num), rnd_wider (by norm_num) (by norm_num),
    fun m hm => rnd_int (by norm_num) m ?_, fun m hm => rnd_int (by norm_num) m ?_⟩ <;> exact_mod_cast hm

/-! ## Concrete calls -/

/-- One row, and `n` terms `l 0, l 1, …`. -/
def listTerms (n : Nat) (l : Nat → ℝ) : List (Mem ℝ) := (List.range n).map fun j k => if k = 0 then l j else 0

/-- The arrays `x` with one zero and `y` with the entries of `l`, for the formula `x + y`. -/
def listArgs (l : Nat → ℝ) : Nat → Mem ℝ := fun a p => if a = 0 then 0 else l p

theorem listArgs_ev (n : Nat) (l : Nat → ℝ) (M : Nat) (i j : Nat) :
    (exProblem ℝ M n (listArgs l)).ev (env (exProblem ℝ M n (listArgs l)).vars 0 (listArgs l) i j) =
      fun k => if k = 0 then l j else 0 := by
  funext k
  simp [exProblem, env, Spec.row, listArgs]

/-- Calls without ranges on the CPU. -/
theorem dense_row (R : Red ℝ) (S : Scheme ℝ) (n : Nat) (l : Nat → ℝ) :
    ∃ row, Row R (CpuExec R S) (fun _ _ _ => False) (listTerms n l) row := by
  have := Row.dense (R := R) (ex := CpuExec R S) (rex := fun _ _ _ => False) (exProblem_wf ℝ 1 n (listArgs l))
    (out := fun _ => 0) ⟨fun _ _ => 0, fun _ _ => 0, _, List.Perm.refl _, rfl⟩ (i := 0) (by simp [outRows, exProblem])
  simp only [show (exProblem ℝ 1 n (listArgs l)).tagI = 0 from rfl,
    show (exProblem ℝ 1 n (listArgs l)).args = listArgs l from rfl, listArgs_ev] at this
  exact ⟨_, this⟩

/-- All the intervals: one cluster, one interval with `n` indices. -/
def fullRanges (n : Nat) : RangesArr where
  nrangesX := 1
  nrangesY := 0
  arr := fun k p => match k with
    | 0 => [0, 1].getD p 0
    | 1 => [1].getD p 0
    | 2 => [0, n].getD p 0
    | _ => 0

/-- Calls with ranges on the CPU. -/
theorem ranges_row (R : Red ℝ) (S : Scheme ℝ) (n : Nat) (l : Nat → ℝ) :
    ∃ row, Row R (fun _ _ _ => False) (CpuRExec R S) (listTerms n l) row := by
  have hb : NoBatch (exProblem ℝ 1 n (listArgs l)).vars [[1, 1], [n, 1]] := by simp [NoBatch, exProblem]
  obtain ⟨P, hP, -⟩ := rangeCall_user (ev := (exProblem ℝ 1 n (listArgs l)).ev) (tagI := 0) (args := listArgs l) hb 1 n
    1 1 (fullRanges n)
  have hwf := exProblem_wf ℝ 1 n (listArgs l)
  have := Row.ranges (R := R) (ex := fun _ _ _ => False) (rex := CpuRExec R S) hwf.vars (by norm_num) hwf.ev hb
    (u := fullRanges n)
    (fun r hr s _ h2 => by
      have hr' : r < 1 := hr
      obtain rfl : r = 0 := by omega
      have h3 : s < 1 := h2
      obtain rfl : s = 0 := by omega
      exact Nat.zero_le _)
    hP (out := fun _ => 0) ⟨fun _ _ _ => 0, fun _ => _, fun _ _ => List.Perm.refl _, rfl⟩ (r := 0) (i := 0)
    ⟨Nat.zero_lt_one, ⟨Nat.le_refl 0, Nat.zero_lt_one⟩, fun r' hr' _ _ => by
      have h3 : r' < 1 := hr'
      omega⟩
  have hc : clusterList ((fullRanges n).axis 0) 0 = List.range n := by
    simp [clusterList, fullRanges, RangesArr.axis, AxisRanges.startSlice, AxisRanges.endSlice, List.range_eq_range']
  rw [hc] at this
  simp only [listArgs_ev] at this
  exact ⟨_, this⟩

theorem ones_terms (n : Nat) : ((listTerms n fun _ => 1).map fun x => x 0) = List.replicate n 1 ∧
    absTotal (listTerms n fun _ => 1) 0 = n := by
  constructor
  · simp [listTerms]
  · simp [absTotal, listTerms]

/-- Executions on the CPU are executions. -/
theorem CpuExec.exec {R : Red ℝ} {S : Scheme ℝ} {P : Problem ℝ} {o o' : Mem ℝ} (h : CpuExec R S P o o') :
    Exec R S P o o' := by
  obtain ⟨accJ, tmpJ, rows, hr, rfl⟩ := h
  exact .cpu accJ tmpJ rows hr

/-- The hypotheses of `C73_same`, `C73_wide_direct`, `C73_wide_block` and `C73_kahan` are met by the sum of the numbers
`0, 1, …, 999` in `float32`, with accumulators in `float32` and in `float64`. -/
example (ra : ℝ → ℝ) (sch : SumScheme) : ∃ S row, getScheme (sumRed (rnd 24) ra sch 1) sch = some S ∧
    Row (sumRed (rnd 24) ra sch 1) (Exec (sumRed (rnd 24) ra sch 1) S) (RExec (sumRed (rnd 24) ra sch 1) S)
      (listTerms 1000 fun j => j) row ∧ (listTerms 1000 fun j => (j : ℝ)).length * (1 / 2 ^ 24 : ℝ) ≤ 1 := by
  have hS : ∃ S, getScheme (sumRed (rnd 24) ra sch 1) sch = some S := by cases sch <;> exact ⟨_, rfl⟩
  obtain ⟨S, hS⟩ := hS
  obtain ⟨row, hrow⟩ := dense_row (sumRed (rnd 24) ra sch 1) S 1000 fun j => j
  exact ⟨S, row, hS, hrow.mono rfl (fun _ _ _ h => h.exec) (fun _ _ _ h => False.elim h), by
    simp [listTerms]; norm_num⟩

/-- The hypothesis of `C73_integers` is met by 1000 ones. -/
example : ∀ k < 1, (∀ x ∈ listTerms 1000 fun _ => 1, ∃ m : ℤ, x k = m) ∧
    absTotal (listTerms 1000 fun _ => 1) k ≤ 2 ^ 24 := by
  intro k hk
  obtain rfl : k = 0 := by omega
  refine ⟨fun x hx => ⟨1, ?_⟩, ?_⟩
  · obtain ⟨j, -, rfl⟩ := List.mem_map.mp hx
    simp
  · rw [(ones_terms 1000).2]
    norm_num

/-! ## What accumulators in double precision do not give -/

/-- The sum of ones, in `float32`, does not exceed `2 ^ 24`. -/
theorem ones_fold (n : Nat) :
    (List.replicate n (1 : ℝ)).foldl (fun s x => rnd 24 (s + x)) 0 = ((min n (2 ^ 24) : Nat) : ℝ) := by
  induction n with
  | zero => simp
  | succ n ih =>
    rw [List.replicate_succ', List.foldl_append, ih]
    simp only [List.foldl_cons, List.foldl_nil]
    rcases Nat.lt_or_ge n (2 ^ 24) with h | h
    · rw [min_eq_left h.le, min_eq_left (by omega)]
      have := rnd_int (p := 24) (by norm_num) ((n + 1 : Nat) : ℤ) (by
        rw [abs_of_nonneg (by positivity)]
        exact_mod_cast h)
      push_cast at this ⊢
      exact this
    · rw [min_eq_right h, min_eq_right (by omega)]
      have := rnd_big
      norm_num at this ⊢
      exact this

/-- **C73 fails with ranges on the CPU**: with `use_double_acc=True` and the default summation scheme, the sum of `2 ^ 25`
ones in `float32` is `2 ^ 24`. -/
theorem not_C73_double_ranges : ∃ S row, getScheme (sumRed (rnd 24) (rnd 53) .block 1) .block = some S ∧
    Row (sumRed (rnd 24) (rnd 53) .block 1) (fun _ _ _ => False) (CpuRExec (sumRed (rnd 24) (rnd 53) .block 1) S)
      (listTerms (2 ^ 25) fun _ => 1) row ∧
    total (listTerms (2 ^ 25) fun _ => 1) 0 = 2 ^ 25 ∧ row 0 = 2 ^ 24 := by
  obtain ⟨t1, t2, t3, -⟩ := C73_types
  obtain ⟨row, hrow⟩ := ranges_row (sumRed (rnd 24) (rnd 53) .block 1) _ (2 ^ 25) fun _ => 1
  have e := (ones_terms (2 ^ 25)).1
  refine ⟨_, row, rfl, hrow, ?_, ?_⟩
  · unfold total
    rw [e, List.sum_replicate]
    norm_num
  · rw [C73_cpu_ranges t1 t3 rfl hrow Nat.zero_lt_one, e, ones_fold]
    rw [min_eq_right (by norm_num)]
    norm_num

/-- **C73 fails without ranges as well**: the temporary accumulator of the default scheme has the type of the data, so that
with `use_double_acc=True` the sum of the three numbers `2 ^ 24`, `1`, `- 2 ^ 24` is `0`. -/
theorem not_C73_double_block : ∃ S row, getScheme (sumRed (rnd 24) (rnd 53) .block 1) .block = some S ∧
    Row (sumRed (rnd 24) (rnd 53) .block 1) (CpuExec (sumRed (rnd 24) (rnd 53) .block 1) S) (fun _ _ _ => False)
      (listTerms 3 fun j => [2 ^ 24, 1, - 2 ^ 24].getD j 0) row ∧
    total (listTerms 3 fun j => [2 ^ 24, 1, - 2 ^ 24].getD j 0) 0 = 1 ∧ row 0 = 0 := by
  obtain ⟨t1, t2, t3, -⟩ := C73_types
  obtain ⟨row, hrow⟩ := dense_row (sumRed (rnd 24) (rnd 53) .block 1) _ 3 fun j => [2 ^ 24, 1, - 2 ^ 24].getD j 0
  refine ⟨_, row, rfl, hrow, ?_, ?_⟩
  · simp [total, listTerms, List.range_succ]
  · rw [C73_cpu_few t1 t3 rfl hrow (by simp [listTerms]) Nat.zero_lt_one]
    have h1 : rnd 24 (2 ^ 24) = 2 ^ 24 := by
      have := rnd_int (p := 24) (by norm_num) (2 ^ 24) (by norm_num)
      exact_mod_cast this
    simp [listTerms, List.range_succ, h1, rnd_big, rnd_zero]

end Verif.Rnd
