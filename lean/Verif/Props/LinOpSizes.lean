import Verif.Props.LinOp

/-!
# C84: sizes of the arrays multiplied by lazy tensors

`K @ v` and `K.matvec(v)`, for an array `v` whose number of rows is not the number of columns of `K`.
-/

namespace Verif.Lazy

open Spec (LExpr PyE PyRed rowsOut rowsRed)

/-- The program `K` makes a lazy tensor with this attribute `shape`. -/
def HasShape (K : PyE) (s : List Nat) : Prop := ∃ e L, run K = some (.lazy e) ∧ eval e = some L ∧ L.shape = s

variable {fresh : Nat → Nat} {K : PyE} {oid src m n p d : Nat} {b shape : List Nat} {data : Data}

theorem matDims_columns (h : Columns shape p d) : ∃ vb, matDims shape = vb ++ [1, p, d] := by
  rcases h with ⟨rfl, rfl⟩ | ⟨vb, rfl⟩
  · exact ⟨[], rfl⟩
  · exact ⟨vb, by simp [matDims]⟩

/-- The lazy tensor of an array with `p` rows has `p` columns. -/
theorem mkArray_rows (oid src : Nat) (vb : List Nat) (hp : p ≠ 1) :
    ∃ bd, mkArray oid src (vb ++ [1, p, d]) none = some (mkVar oid src (vb ++ [p, d]) 1 bd) := by
  have hne : vb ++ [1, p, d] ≠ [] := by simp
  simp only [mkArray, if_neg hne]
  simp [List.getD_eq_getElem?_getD, hp, List.getLastD_eq_getLast?]

theorem nj_of_shape {L : LazyT} (h : L.shape = b ++ [m, n, d]) (hn : n ≠ 1) : L.nj = some n := by
  have h' : L.batchdims.getD [] ++ [L.ni.getD 1, L.nj.getD 1, L.ndim] = b ++ [m, n, d] := h
  have := (List.append_inj' h' rfl).2
  simp only [List.cons.injEq, and_true] at this
  cases hj : L.nj with
  | none =>
    rw [hj] at this
    exact absurd this.2.1.symm hn
  | some a =>
    rw [hj] at this
    exact congrArg some this.2.1

/-- **C84**: if `K` has `n` columns and `v` has `p` rows, with `p ≠ n`, then the product `K * v` of `K @ v` raises an
exception, and so `K @ v` does.

Partial: `n ≠ 1` and `p ≠ 1`; it fails otherwise (`not_C84_row`, `not_C84_column`). -/
theorem C84_partial (hK : HasShape K (b ++ [m, n, 1])) (hn : n ≠ 1) (hv : Columns shape p d) (hp : p ≠ 1) (hpn : p ≠ n) :
    run (matProg K oid src shape) = none ∧ matvec K oid src shape = none := by
  obtain ⟨e, L, hr, hL, hs⟩ := hK
  obtain ⟨vb, hdims⟩ := matDims_columns hv
  obtain ⟨bd, ha⟩ := mkArray_rows (d := d) oid src vb hp
  have hnj := nj_of_shape hs hn
  have hnone : run (matProg K oid src shape) = none := by
    have hv' : run (.lazy oid src (matDims shape) none) = some (.lazy (.array oid src (matDims shape) none)) := by
      simp [run, mk, eval, hdims, ha]
    have hjoin : join L (mkVar oid src (vb ++ [p, d]) 1 bd) = none := by
      have hq : (mkVar oid src (vb ++ [p, d]) 1 bd).nj = some p := by
        simp [mkVar, List.getD_eq_getElem?_getD]
      have hpr : promote L.nj (mkVar oid src (vb ++ [p, d]) 1 bd).nj = none := by
        rw [hnj, hq]
        simp [promote, Ne.symm hpn]
      unfold join
      rw [hpr]
      cases promote L.ni (mkVar oid src (vb ++ [p, d]) 1 bd).ni <;> rfl
    have hbin : eval (.binary "*".toList true none .sameor1 none false e (.array oid src (matDims shape) none)) = none := by
      simp only [eval, hL, hdims, ha, Option.bind_some, binary, hjoin]
      split <;> rfl
    simp only [matProg, run, hr, Option.bind_some, opCall, left]
    rw [show mk (.array oid src (matDims shape) none) = _ from hv']
    simp only [Option.bind_some, mul, scalarEq, infixOp, mk, Val.toLazy, hbin]
    rfl
  refine ⟨hnone, ?_⟩
  unfold matvec matmul
  rw [hr]
  simp only [Option.bind_some, hnone, Option.bind_none]
  cases ndim e with
  | none => rfl
  | some x => by_cases hx : x ≠ 1 <;> simp [hx]

/-- **C84**, for the transpose: if `K` has `m` rows and `w` has `p` rows, with `p ≠ m`, then `K.rmatvec(w)` raises an
exception.

Partial: as `C84_partial`. -/
theorem C84_transpose_partial (hK : HasShape K (b ++ [m, n, 1])) (hm : m ≠ 1) (hv : Columns shape p d) (hp : p ≠ 1)
    (hpm : p ≠ m) : rmatvec fresh K oid src shape = none := by
  obtain ⟨e, L, hr, hL, hs⟩ := hK
  have hT : HasShape (.t fresh K) (b ++ [n, m, 1]) := by
    refine ⟨.t fresh e, transpose fresh L, ?_, ?_, ?_⟩
    · simp [run, hr, mk, eval, hL]
    · simp [eval, hL]
    · have h' : L.batchdims.getD [] ++ [L.ni.getD 1, L.nj.getD 1, L.ndim] = b ++ [m, n, 1] := hs
      obtain ⟨h1, h2⟩ := List.append_inj' h' rfl
      simp only [List.cons.injEq, and_true] at h2
      simp only [LazyT.shape, transpose, h1, h2.1, h2.2.1, h2.2.2]
  exact (C84_partial hT hm hv hp hpm).2

/-- **C84**, exactly: among the arrays `v` with `p` rows, those that `K @ v` accepts are those with one row, and those with as
many rows as `K` has columns. `K` is as in C83. -/
theorem C84_accepts (hK : HasShape K [m, n, 1]) (hn : n ≠ 1) (hv : shape = [p] ∧ d = 1 ∨ shape = [p, d])
    (hp : ProperRed .sum (matProg K oid src shape)) (hl : K.IsLazy) (hd1 : K.dim = 1) (h : K.Fits [] m n)
    (hf : K.NoFraction) (hd : d ≤ 100) {i j : Nat} (hh : K.Holds data) (hdef : K.Def data i j) :
    (∃ c, matvec K oid src shape = some c) ↔ p = n ∨ p = 1 := by
  constructor
  · rintro ⟨c, hc⟩
    by_contra hcon
    rw [not_or] at hcon
    have := (C84_partial (b := []) (oid := oid) (src := src) hK hn (hv.imp_right fun e => ⟨[], e⟩) hcon.2 hcon.1).2
    rw [this] at hc
    cases hc
  · intro hpn
    obtain ⟨c, -, hc, -⟩ := matmul_total hpn hv hp hl hd1 h hf hd hh hdef
    exact ⟨c, hc⟩

/-- The products with arrays of `n` rows or one row, at most 100 columns, and batch dimensions that are broadcast with those of `K`
to `B`, exist. -/
theorem matmul_batch {B vb : List Nat} (hB : 0 ∉ B) (hpn : p = n ∨ p = 1) (hv : shape = [p] ∧ d = 1 ∧ vb = [] ∨ shape = vb ++ [p, d])
    (hvb : Spec.broadcast vb B = some B) (hp : ProperRed .sum (matProg K oid src shape)) (hl : K.IsLazy) (hK : K.dim = 1)
    (h : K.Fits B m n) (hf : K.NoFraction) (hd : d ≤ 100) {i j : Nat} (hh : K.Holds data) (hdef : K.Def data i j) :
    ∃ c ex, matmul K oid src shape = some c ∧ Runs c.f ex ∧
      redCall .sum (matProg K oid src shape) (nbatch (matProg K oid src shape) + 1) = some c := by
  have hdims : matDims shape = vb ++ [1, p, d] := by
    rcases hv with ⟨rfl, rfl, rfl⟩ | rfl
    · rfl
    · simp [matDims]
  have hlast : (vb ++ [1, p, d]).getLastD 1 = d := by simp [List.getLastD_eq_getLast?]
  have hfit : (matProg K oid src shape).Fits B m n := by
    refine ⟨.inl hl, (fun h => by cases h), h, ?_, d, fun x hx => ?_⟩
    · rw [hdims]
      exact .inr ⟨vb, 1, p, d, rfl, hvb, .inr (hpn.imp (fun h => ⟨rfl, h⟩) fun h => ⟨rfl, h⟩)⟩
    · simp only [PyE.dim, hdims, hK, List.mem_cons, List.not_mem_nil, or_false] at hx
      simpa [hlast] using hx
  have hdim : (matProg K oid src shape).dim ≤ 100 := by
    simp only [matProg, PyE.dim, Spec.PyOp.dim, hK, hdims]
    exact Nat.max_le.2 ⟨by omega, by simpa [hlast] using hd⟩
  obtain ⟨c, hc, -, ex, hx⟩ := C81_reductions (r := .sum) (a := 1) hp trivial hB hfit ⟨hf, trivial, fun h => by cases h⟩
    (fun w h => by cases h) (data := data) (i := i) (j := j) ⟨hh, trivial⟩ ⟨hdef, trivial, trivial⟩
    (fun w h => by cases h) (by decide) (fun _ => hdim) (fun K h => by simp at h) (fun h => by simp [PyRed.weight] at h)
  obtain ⟨⟨hpos, -⟩, hzero, hargs, hfresh, -⟩ := hp.self
  obtain ⟨v, hr, ⟨L, hL, hnd, -⟩, hlv⟩ := tot_of_fits hB h hpos (noZero_op hzero).1 hargs.1
  obtain ⟨e, rfl⟩ := hlv hl
  obtain ⟨v', hr', ⟨L', hL', -⟩, hlv'⟩ := tot_of_fits hB hfit hp.self.pos hp.self.zero hp.self.args
  obtain ⟨e', rfl⟩ := hlv' trivial
  have hL : eval e = some L := hL
  have hL' : eval e' = some L' := hL'
  have hnb : nbatch (matProg K oid src shape) = L'.nbatchdims := by
    rw [nbatch, hr']
    simp only [hL', Option.map_some, Option.getD_some]
  refine ⟨c, ex, ?_, hx, hc⟩
  rw [hnb] at hc
  simp only [matmul, hr, Option.bind_some, ndim, hL, Option.map_some, hr', hL']
  rw [if_neg (not_not.2 (hnd.trans hK))]
  exact hc

/-- **C84**, exactly, with batch dimensions: `K` has the sizes `m` and `n` and any batch dimensions, `v` has the batch dimensions
`vb` and `p` rows, and the batch dimensions are broadcast to `B`. Then `K @ v` is accepted if and only if `v` has one row, or as many
rows as `K` has columns. `K` is as in C83. -/
theorem C84_accepts_batch {B vb : List Nat} (hK : HasShape K (b ++ [m, n, 1])) (hn : n ≠ 1) (hB : 0 ∉ B)
    (hv : shape = [p] ∧ d = 1 ∧ vb = [] ∨ shape = vb ++ [p, d]) (hvb : Spec.broadcast vb B = some B)
    (hp : ProperRed .sum (matProg K oid src shape)) (hl : K.IsLazy) (hd1 : K.dim = 1) (h : K.Fits B m n)
    (hf : K.NoFraction) (hd : d ≤ 100) {i j : Nat} (hh : K.Holds data) (hdef : K.Def data i j) :
    (∃ c, matvec K oid src shape = some c) ↔ p = n ∨ p = 1 := by
  constructor
  · rintro ⟨c, hc⟩
    by_contra hcon
    rw [not_or] at hcon
    have hcol : Columns shape p d := hv.imp (fun e => ⟨e.1, e.2.1⟩) fun e => ⟨vb, e⟩
    rw [(C84_partial (oid := oid) (src := src) hK hn hcol hcon.2 hcon.1).2] at hc
    cases hc
  · intro hpn
    obtain ⟨c, -, hc, -⟩ := matmul_batch hB hpn hv hvb hp hl hd1 h hf hd hh hdef
    exact ⟨c, hc⟩

/-- Not **C84**: an array `v` with a single row is accepted, whatever the number `n` of columns of `K`, and the output is
`Σ_j K(i, j) v_0`, as if its row were repeated. `K` is as in C83. -/
theorem not_C84_row (hv : shape = [1] ∧ d = 1 ∨ shape = [1, d]) (hp : ProperRed .sum (matProg K oid src shape))
    (hl : K.IsLazy) (hK : K.dim = 1) (h : K.Fits [] m n) (hf : K.NoFraction) (hd : d ≤ 100) (hm : 0 < m) (hn : 0 < n)
    (hh : K.Holds data) (hdef : ∀ i < m, ∀ j < n, K.Def data i j) (P : PostNum ℝ) (sch : SumScheme) :
    ∃ c ex S, matvec K oid src shape = some c ∧ Runs c.f ex ∧ getScheme (sumRed (V := ℝ) ex.dim) sch = some S ∧
      ∀ M : CMath, M.Exact → ∀ junk out,
        (∃ y, Exec (sumRed ex.dim) S (ex.call id id M junk c.cat.toNat m n (given data c.srcs)) out y) ∧
        ∀ y, Exec (sumRed ex.dim) S (ex.call id id M junk c.cat.toNat m n (given data c.srcs)) out y →
          ∀ i < m, ∃ arr, postprocess P (redOp .sum) (optArg .sum) ex.dim (y.shift (i * ex.dim)) = some [arr] ∧
            arr.shape = [d] ∧ ∀ k < d, arr.get k = ∑ j ∈ Finset.range n, K.val data i j 0 * data src k := by
  obtain ⟨c, ex, hc, hx, hnb⟩ := matmul_total (.inr rfl) hv hp hl hK h hf hd hh (hdef 0 hm 0 hn)
  obtain ⟨-, -, S, hS, hall⟩ := matmul_value (m := m) (n := n) (hv.imp_right fun e => ⟨[], e⟩) hp hc hx hh hdef P sch
  refine ⟨c, ex, S, hc, hx, hS, fun M hM junk out => ⟨exec_exists_gpu _ _ _ out, fun y hy i hi => ?_⟩⟩
  obtain ⟨arr, h1, h2, h3⟩ := hall _ _ _ (.dense (a := 1) hnb hM hy hi)
  refine ⟨arr, h1, h2, fun k hk => (h3 k hk).trans ?_⟩
  have : ∀ (f : Nat → ℝ) a, ((List.range a).map f).sum = ∑ j ∈ Finset.range a, f j := fun f a => by
    induction a with
    | zero => simp
    | succ a ih => rw [List.range_succ, Finset.sum_range_succ, ← ih]; simp
  rw [this]
  simp [rowsRed]

/-- Not **C84**: a lazy tensor with 5 rows and one column, made from an array, can be multiplied by an array with 7 rows. -/
theorem not_C84_column : HasShape (.lazy 1000 0 [5, 1, 1] none) [5, 1, 1] ∧
    ∃ c, matvec (.lazy 1000 0 [5, 1, 1] none) 1004 3 [7] = some c :=
  ⟨⟨_, _, rfl, rfl, by decide +kernel⟩, Option.isSome_iff_exists.1 (by decide +kernel)⟩

/-! ## Witnesses -/

/-- The kernel of C83, with 5 rows and 7 columns: arrays with 6 rows are refused, arrays with 7 rows or a single row are
accepted. -/
example : HasShape exK [5, 7, 1] ∧ matvec exK 1004 3 [6] = none ∧ rmatvec (· + 2000) exK 1004 3 [6] = none := by
  have h : HasShape exK ([] ++ [5, 7, 1]) := by
    refine ⟨_, _, rfl, rfl, by decide +kernel⟩
  exact ⟨h, (C84_partial h (by decide) (p := 6) (.inl ⟨rfl, rfl⟩) (by decide) (by decide)).2,
    C84_transpose_partial h (by decide) (p := 6) (.inl ⟨rfl, rfl⟩) (by decide) (by decide)⟩

theorem exRow_proper : ProperRed .sum (matProg exK 1004 3 [1]) where
  self :=
    { pos := by simp [matProg, exScore, PyE.Pos, matDims]
      zero := by simp [matProg, exScore, PyE.NoZero, PyE.IsZero]
      args := by simp [matProg, exScore, PyE.LazyArgs]
      fresh := by simp [matProg, exScore, Fresh]
      ids := ids_of (by decide +kernel) }
  weight := fun w h => by cases h
  ids := fun w e e' L W h => by cases h

theorem exK_fits : exK.Fits [] 5 7 := by
  have h : Spec.Alike [3, 3] := ⟨3, by simp⟩
  simp [exScore, PyE.Fits, PyE.IsLazy, Spec.FitsShape, Spec.PyOp.Fits, PyE.dim, PyE.IsExponent, h]

/-- The product of the kernel, with 7 columns, and an array with one entry: each entry of the output is a sum of 7 terms. -/
example (data : Data) (P : PostNum ℝ) : ∃ (c : RedCall) (ex : Expr) (S : Scheme ℝ), matvec exK 1004 3 [1] = some c ∧
    getScheme (sumRed (V := ℝ) ex.dim) .direct = some S ∧ ∀ junk out, ∃ y,
      Exec (sumRed ex.dim) S (ex.call id id realMath junk c.cat.toNat 5 7 (given data c.srcs)) out y ∧
      ∀ i < 5, ∃ arr, postprocess P (redOp .sum) (optArg .sum) ex.dim (y.shift (i * ex.dim)) = some [arr] ∧
        arr.get 0 = ∑ j ∈ Finset.range 7, exK.val data i j 0 * data 3 0 := by
  obtain ⟨c, ex, S, hc, -, hS, hall⟩ := not_C84_row (m := 5) (n := 7) (d := 1) (data := data) (.inl ⟨rfl, rfl⟩) exRow_proper
    trivial rfl exK_fits (by simp [exScore, PyE.NoFraction]) (by decide) (by decide) (by decide)
    (by simp [exScore, PyE.Holds]) (fun i _ j _ => by simp [exScore, PyE.Def, Spec.PyM1.Def, Spec.PyOp.Def]) P .direct
  refine ⟨c, ex, S, hc, hS, fun junk out => ?_⟩
  obtain ⟨⟨y, hy⟩, h⟩ := hall realMath realMath_exact junk out
  refine ⟨y, hy, fun i hi => ?_⟩
  obtain ⟨arr, h1, -, h3⟩ := h y hy i hi
  exact ⟨arr, h1, h3 0 (by decide)⟩

/-- The hypotheses of `C84_accepts` for this product. -/
example : (∃ c, matvec exK 1004 3 [1] = some c) ↔ 1 = 7 ∨ 1 = 1 :=
  C84_accepts (m := 5) (d := 1) (i := 0) (j := 0) (data := fun _ _ => 0) ⟨_, _, rfl, rfl, by decide +kernel⟩ (by decide)
    (.inl ⟨rfl, rfl⟩) exRow_proper trivial rfl exK_fits (by simp [exScore, PyE.NoFraction]) (by decide)
    (by simp [exScore, PyE.Holds]) (by simp [exScore, PyE.Def, Spec.PyM1.Def, Spec.PyOp.Def])

/-- `Σ (x_i - y_j)²` with 4 batches of 5 points `x`, and 7 points `y`. -/
abbrev exK4 : PyE := .m1 .sum (.op .pow (.op .sub (.lazy 1000 0 [4, 5, 1, 3] none) (.lazy 1001 1 [1, 7, 3] none)) (.int 2))

/-- The hypotheses of `C84_accepts_batch`, for the product by an array with 4 batches of 7 rows and 2 columns. -/
example : (∃ c, matvec exK4 1004 3 [4, 7, 2] = some c) ↔ 7 = 7 ∨ 7 = 1 := by
  have h : Spec.Alike [3, 3] := ⟨3, by simp⟩
  refine C84_accepts_batch (b := [4]) (m := 5) (d := 2) (B := [4]) (vb := [4]) (i := 0) (j := 0) (data := fun _ _ => 0)
    ⟨_, _, rfl, rfl, by decide +kernel⟩ (by decide) (by simp) (.inr rfl) rfl ?_ trivial rfl ?_ (by simp [PyE.NoFraction])
    (by decide) (by simp [PyE.Holds]) (by simp [PyE.Def, Spec.PyM1.Def, Spec.PyOp.Def])
  · exact
      { self :=
          { pos := by simp [matProg, PyE.Pos, matDims]
            zero := by simp [matProg, PyE.NoZero, PyE.IsZero]
            args := by simp [matProg, PyE.LazyArgs]
            fresh := by simp [matProg, Fresh]
            ids := ids_of (by decide +kernel) }
        weight := fun w h => by cases h
        ids := fun w e e' L W h => by cases h }
  · simp [PyE.Fits, PyE.IsLazy, Spec.FitsShape, Spec.PyOp.Fits, PyE.dim, PyE.IsExponent, h]
    exact ⟨⟨[4], 5, 1, ⟨3, rfl⟩, rfl, by simp⟩, [], 1, 7, ⟨3, rfl⟩, rfl, by simp⟩

end Verif.Lazy
