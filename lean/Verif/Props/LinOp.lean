import Mathlib.LinearAlgebra.Matrix.Trace
import Verif.Proofs.LinOp
import Verif.Props.Cluster
import Verif.Props.TransposeRed
import Verif.Props.RedAccept

/-!
# C83: lazy tensors as linear operators

`K.matvec(v)` and `K.rmatvec(w)`, that SciPy calls when `K` is given to `aslinearoperator`, are products with a matrix and
with its transpose.
-/

namespace Verif.Lazy

open Spec (LExpr PyE PyRed rowsOut rowsRed kernelMatrix arrayMatrix)
open Matrix

/-- The output of a sum, whose rows are `rows`, is the array `Y`. -/
def Gives (P : PostNum ℝ) (dim : Nat) {m d : Nat} (rows : Fin m → Mem ℝ) (Y : Matrix (Fin m) (Fin d) ℝ) : Prop :=
  ∀ i, ∃ arr, postprocess P (redOp .sum) (optArg .sum) dim (rows i) = some [arr] ∧ arr.shape = [d] ∧
    ∀ k : Fin d, arr.get k = Y i k

theorem Gives.unique {P : PostNum ℝ} {dim m d : Nat} {rows : Fin m → Mem ℝ} {Y Z : Matrix (Fin m) (Fin d) ℝ}
    (h : Gives P dim rows Y) (h' : Gives P dim rows Z) : Y = Z := by
  ext i k
  obtain ⟨arr, e, -, e'⟩ := h i
  obtain ⟨arr', f, -, f'⟩ := h' i
  obtain rfl : arr = arr' := by simpa using e.symm.trans f
  rw [← e' k, ← f' k]

/-- An array with `n` rows and `d` columns; a vector has one column. -/
def Columns (shape : List Nat) (n d : Nat) : Prop := shape = [n] ∧ d = 1 ∨ ∃ vb, shape = vb ++ [n, d]

variable {fresh : Nat → Nat} {K : PyE} {oid src oid' src' m n d : Nat} {shape shape' : List Nat} {c c' : RedCall}
  {ex ex' : Expr} {data : Data}

/-- The product by a lazy tensor, with the indices `js i` in row `i`: the matrix has the entry `K(i, j)`, as many times as
`j` is in `js i`. -/
theorem matvec_rows (hv : Columns shape n d) (hp : ProperRed .sum (matProg K oid src shape))
    (h : matmul K oid src shape = some c) (hx : Runs c.f ex) (hh : K.Holds data) (hd : ∀ i < m, ∀ j < n, K.Def data i j)
    (P : PostNum ℝ) (sch : SumScheme) :
    ∃ S, getScheme (sumRed (V := ℝ) ex.dim) sch = some S ∧ ∀ (js : Fin m → List Nat) rows, (∀ i, ∀ j ∈ js i, j < n) →
      (∀ i : Fin m, OutRow .sum (matProg K oid src shape) id id c ex (sumRed ex.dim) S data m n 1 (js i) i (rows i)) →
      Gives P (sumRed (V := ℝ) ex.dim).dim rows
        ((of fun i (j : Fin n) => ((js i).count (j : Nat) : ℝ) * kernelMatrix K data m n i j) * arrayMatrix data src n d) := by
  obtain ⟨-, -, S, hS, hall⟩ := matmul_value hv hp h hx hh hd P sch
  refine ⟨S, hS, fun js rows hjs ho i => ?_⟩
  obtain ⟨arr, h1, h2, h3⟩ := hall _ _ _ (ho i)
  refine ⟨arr, h1, h2, fun k => (h3 k k.2).trans ?_⟩
  have e : ((js i).map fun j => K.val data i j 0 * data src ((if n = 1 then 0 else j) * d + k)) =
      (js i).map fun j => K.val data i j 0 * data src (j * d + k) := by
    refine List.map_congr_left fun j hj => ?_
    by_cases h : n = 1
    · have := hjs i j hj
      obtain rfl : j = 0 := by omega
      simp
    · rw [if_neg h]
  rw [e, sum_count _ _ (hjs i), Matrix.mul_apply]
  refine Finset.sum_congr rfl fun j _ => ?_
  simp [kernelMatrix, arrayMatrix, mul_assoc]

/-- **C83**, with clusters: if `j` is as many times in the list of `i` for `K` as `i` is in the list of `j` for `K.T`, then
`K.matvec(v)` and `K.rmatvec(w)` are products with a matrix and with its transpose. -/
theorem C83_ranges (hv : Columns shape n d) (hw : Columns shape' m d) (hp : ProperRed .sum (matProg K oid src shape))
    (hp' : ProperRed .sum (matProg (.t fresh K) oid' src' shape')) (h : matvec K oid src shape = some c)
    (h' : rmatvec fresh K oid' src' shape' = some c') (hx : Runs c.f ex) (hx' : Runs c'.f ex') (hh : K.Holds data)
    (hd : ∀ i < m, ∀ j < n, K.Def data i j) (P : PostNum ℝ) (sch : SumScheme) :
    ∃ S S', getScheme (sumRed (V := ℝ) ex.dim) sch = some S ∧ getScheme (sumRed (V := ℝ) ex'.dim) sch = some S' ∧
      ∀ (js : Fin m → List Nat) (is : Fin n → List Nat) rows rows', (∀ i, ∀ j ∈ js i, j < n) → (∀ j, ∀ i ∈ is j, i < m) →
      (∀ (i : Fin m) (j : Fin n), (js i).count (j : Nat) = (is j).count (i : Nat)) →
      (∀ i : Fin m, OutRow .sum (matProg K oid src shape) id id c ex (sumRed ex.dim) S data m n 1 (js i) i (rows i)) →
      (∀ j : Fin n, OutRow .sum (matProg (.t fresh K) oid' src' shape') id id c' ex' (sumRed ex'.dim) S' data n m 1 (is j) j
        (rows' j)) →
      ∃ (A : Matrix (Fin m) (Fin n) ℝ) (Y : Matrix (Fin m) (Fin d) ℝ) (Z : Matrix (Fin n) (Fin d) ℝ),
        (∀ i j, A i j = ((js i).count (j : Nat) : ℝ) * K.val data i j 0) ∧
        Gives P (sumRed (V := ℝ) ex.dim).dim rows Y ∧ Gives P (sumRed (V := ℝ) ex'.dim).dim rows' Z ∧
        Y = A * arrayMatrix data src n d ∧ Z = Aᵀ * arrayMatrix data src' m d := by
  obtain ⟨S, hS, h1⟩ := matvec_rows (m := m) (n := n) hv hp h hx hh hd P sch
  obtain ⟨S', hS', h2⟩ := matvec_rows (m := n) (n := m) (data := data) hw hp' h' hx' hh
    (fun i hi j hj => hd j hj i hi) P sch
  refine ⟨S, S', hS, hS', fun js is rows rows' hjs his hc ho ho' => ?_⟩
  refine ⟨of fun i (j : Fin n) => ((js i).count (j : Nat) : ℝ) * kernelMatrix K data m n i j, _, _, fun i j => rfl, h1 js rows hjs ho,
    h2 is rows' his ho', rfl, ?_⟩
  congr 1
  ext j i
  simp [kernelMatrix, PyE.val, hc i j]

/-- **C83**, without ranges: `K.matvec(v)` is `A v` and `K.rmatvec(w)` is `Aᵀ w`, where `A` is the matrix of the numbers
`K(i, j)`; hence `⟨w, K v⟩ = ⟨Kᵀ w, v⟩` for each column. Missing: complex tensors, for which both raise a `ValueError`;
rounding. -/
theorem C83_partial (hv : Columns shape n d) (hw : Columns shape' m d) (hp : ProperRed .sum (matProg K oid src shape))
    (hp' : ProperRed .sum (matProg (.t fresh K) oid' src' shape')) (h : matvec K oid src shape = some c)
    (h' : rmatvec fresh K oid' src' shape' = some c') (hx : Runs c.f ex) (hx' : Runs c'.f ex') (hh : K.Holds data)
    (hd : ∀ i < m, ∀ j < n, K.Def data i j) (P : PostNum ℝ) (sch : SumScheme) :
    ∃ S S', getScheme (sumRed (V := ℝ) ex.dim) sch = some S ∧ getScheme (sumRed (V := ℝ) ex'.dim) sch = some S' ∧
      ∀ rows rows',
      (∀ i : Fin m, OutRow .sum (matProg K oid src shape) id id c ex (sumRed ex.dim) S data m n 1 (List.range n) i (rows i)) →
      (∀ j : Fin n, OutRow .sum (matProg (.t fresh K) oid' src' shape') id id c' ex' (sumRed ex'.dim) S' data n m 1
        (List.range m) j (rows' j)) →
      ∃ (Y : Matrix (Fin m) (Fin d) ℝ) (Z : Matrix (Fin n) (Fin d) ℝ),
        Gives P (sumRed (V := ℝ) ex.dim).dim rows Y ∧ Gives P (sumRed (V := ℝ) ex'.dim).dim rows' Z ∧
        Y = kernelMatrix K data m n * arrayMatrix data src n d ∧
        Z = (kernelMatrix K data m n)ᵀ * arrayMatrix data src' m d ∧
        ∀ k l, ∑ i, arrayMatrix data src' m d i l * Y i k = ∑ j, Z j l * arrayMatrix data src n d j k := by
  obtain ⟨S, S', hS, hS', hall⟩ := C83_ranges (m := m) (n := n) hv hw hp hp' h h' hx hx' hh hd P sch
  refine ⟨S, S', hS, hS', fun rows rows' ho ho' => ?_⟩
  have count : ∀ {a b : Nat}, b < a → (List.range a).count b = 1 := fun {a b} hb =>
    List.count_eq_one_of_mem List.nodup_range (List.mem_range.2 hb)
  obtain ⟨A, Y, Z, hA, hY, hZ, rfl, rfl⟩ := hall (fun _ => List.range n) (fun _ => List.range m) rows rows'
    (fun _ _ hj => List.mem_range.1 hj) (fun _ _ hi => List.mem_range.1 hi)
    (fun i j => (count j.2).trans (count i.2).symm) ho ho'
  obtain rfl : A = kernelMatrix K data m n := by
    ext i j
    rw [hA, count j.2]
    simp [kernelMatrix]
  refine ⟨_, _, hY, hZ, rfl, rfl, fun k l => ?_⟩
  have e := congrFun (congrFun (Matrix.mul_assoc (arrayMatrix data src' m d)ᵀ (kernelMatrix K data m n)
    (arrayMatrix data src n d)) l) k
  have e' : (arrayMatrix data src' m d)ᵀ * kernelMatrix K data m n =
      ((kernelMatrix K data m n)ᵀ * arrayMatrix data src' m d)ᵀ := by simp
  rw [e'] at e
  exact e.symm

/-- In the list of the class `k`, the points kept with this class are once, and the other ones are not. -/
theorem mask_count {lab : List Nat} {rj : List (Nat × Nat)} (hc : Spec.Classes lab rj) (m : Nat) (ri : List (Nat × Nat))
    (keep : Nat → Nat → Bool) {k : Nat} (hk : k < m) (j : Nat) :
    (clusterList (halfAxis m rj.length ri rj keep) k).count j =
      if j < lab.length ∧ keep k (lab.getD j 0) = true then 1 else 0 := by
  have h := mask_sum hc m ri keep hk fun l => if l = j then 1 else 0
  have e : ∀ l : List Nat, (l.map fun l => if l = j then 1 else 0).sum = l.count j := fun l => by
    induction l with
    | nil => rfl
    | cons a l ih =>
      rw [List.map_cons, List.sum_cons, ih, List.count_cons, add_comm]
      simp
  rw [e] at h
  rw [h, Finset.sum_ite_eq']
  simp

/-- **C83**, with the ranges of `from_matrix` for the labels `labx` and `laby` of sorted points and a boolean matrix `keep`
(`K.T` has the ranges of `swap_axes`): the two products are those with a matrix and its transpose. The matrix has the
entry `K(i, j)` where the classes of `i` and `j` are kept, 0 elsewhere. -/
theorem C83_blocks (labx laby : List Nat) (hlx : labx.Pairwise (· ≤ ·)) (hly : laby.Pairwise (· ≤ ·))
    (keep : Nat → Nat → Bool) (hv : Columns shape laby.length d) (hw : Columns shape' labx.length d)
    (hp : ProperRed .sum (matProg K oid src shape)) (hp' : ProperRed .sum (matProg (.t fresh K) oid' src' shape'))
    (h : matvec K oid src shape = some c) (h' : rmatvec fresh K oid' src' shape' = some c') (hx : Runs c.f ex)
    (hx' : Runs c'.f ex') (hh : K.Holds data) (hd : ∀ i < labx.length, ∀ j < laby.length, K.Def data i j)
    (P : PostNum ℝ) (sch : SumScheme) :
    ∃ r r' S S', fromMatrix (clusterRanges labx none).length (clusterRanges laby none).length (clusterRanges labx none)
        (clusterRanges laby none) keep = some r ∧ swapAxes (some r) = some r' ∧
      (∀ i : Fin labx.length, InCluster (r.toArr.axis 0) labx[i] i) ∧
      (∀ j : Fin laby.length, InCluster (r'.toArr.axis 0) laby[j] j) ∧
      getScheme (sumRed (V := ℝ) ex.dim) sch = some S ∧ getScheme (sumRed (V := ℝ) ex'.dim) sch = some S' ∧
      ∀ rows rows',
      (∀ i : Fin labx.length, OutRow .sum (matProg K oid src shape) id id c ex (sumRed ex.dim) S data labx.length
        laby.length 1 (clusterList (r.toArr.axis 0) labx[i]) i (rows i)) →
      (∀ j : Fin laby.length, OutRow .sum (matProg (.t fresh K) oid' src' shape') id id c' ex' (sumRed ex'.dim) S' data
        laby.length labx.length 1 (clusterList (r'.toArr.axis 0) laby[j]) j (rows' j)) →
      ∃ (A : Matrix (Fin labx.length) (Fin laby.length) ℝ) (Y : Matrix (Fin labx.length) (Fin d) ℝ)
        (Z : Matrix (Fin laby.length) (Fin d) ℝ),
        (∀ i j, A i j = if keep labx[i] laby[j] then K.val data i j 0 else 0) ∧
        Gives P (sumRed (V := ℝ) ex.dim).dim rows Y ∧ Gives P (sumRed (V := ℝ) ex'.dim).dim rows' Z ∧
        Y = A * arrayMatrix data src laby.length d ∧ Z = Aᵀ * arrayMatrix data src' labx.length d := by
  have hcx := classes_sorted (List.Perm.refl labx) hlx
  have hcy := classes_sorted (List.Perm.refl laby) hly
  obtain ⟨r, hr, -, -, hr0, -⟩ := fromMatrix_eq (ri := clusterRanges labx none) (rj := clusterRanges laby none) keep rfl rfl
  obtain ⟨r', hr', -, -, hr0', -⟩ := fromMatrix_eq (ri := clusterRanges laby none) (rj := clusterRanges labx none)
    (fun b a => keep a b) rfl rfl
  have hsw := C50_transpose (clusterRanges labx none).length (clusterRanges laby none).length (clusterRanges labx none)
    (clusterRanges laby none) keep
  rw [hr, hr'] at hsw
  obtain ⟨S, S', hS, hS', hall⟩ := C83_ranges (m := labx.length) (n := laby.length) hv hw hp hp' h h' hx hx' hh hd P sch
  refine ⟨r, r', S, S', hr, hsw, fun i => ?_, fun j => ?_, hS, hS', fun rows rows' ho ho' => ?_⟩
  · rw [hr0]
    exact mask_inCluster hcx _ _ keep i.2
  · rw [hr0']
    exact mask_inCluster hcy _ _ _ j.2
  rw [hr0] at ho
  rw [hr0'] at ho'
  have cx : ∀ (i : Fin labx.length) j, (clusterList (halfAxis (clusterRanges labx none).length
      (clusterRanges laby none).length (clusterRanges labx none) (clusterRanges laby none) keep) labx[i]).count j =
      if j < laby.length ∧ keep labx[i] (laby.getD j 0) = true then 1 else 0 := fun i j =>
    mask_count hcy _ _ keep (hcx.label _ (List.getElem_mem i.2)) j
  have cy : ∀ (j : Fin laby.length) i, (clusterList (halfAxis (clusterRanges laby none).length
      (clusterRanges labx none).length (clusterRanges laby none) (clusterRanges labx none) fun b a => keep a b)
        laby[j]).count i = if i < labx.length ∧ keep (labx.getD i 0) laby[j] = true then 1 else 0 := fun j i =>
    mask_count hcx _ _ (fun b a => keep a b) (hcy.label _ (List.getElem_mem j.2)) i
  have bx : ∀ (i : Fin labx.length), ∀ j ∈ clusterList (halfAxis (clusterRanges labx none).length
      (clusterRanges laby none).length (clusterRanges labx none) (clusterRanges laby none) keep) labx[i],
      j < laby.length := fun i j hj => by
    by_contra hn
    have h := cx i j
    rw [if_neg (fun h => hn h.1)] at h
    exact List.count_eq_zero.1 h hj
  have by' : ∀ (j : Fin laby.length), ∀ i ∈ clusterList (halfAxis (clusterRanges laby none).length
      (clusterRanges labx none).length (clusterRanges laby none) (clusterRanges labx none) fun b a => keep a b) laby[j],
      i < labx.length := fun j i hi => by
    by_contra hn
    have h := cy j i
    rw [if_neg (fun h => hn h.1)] at h
    exact List.count_eq_zero.1 h hi
  obtain ⟨A, Y, Z, hA, hY, hZ, e, e'⟩ := hall _ _ rows rows' bx by' (fun i j => by
    rw [cx, cy, List.getD_eq_getElem _ _ j.2, List.getD_eq_getElem _ _ i.2]
    simp) ho ho'
  refine ⟨A, Y, Z, fun i j => ?_, hY, hZ, e, e'⟩
  rw [hA, cx, List.getD_eq_getElem _ _ j.2]
  simp

/-- The products with arrays of `n` rows or one row, and at most 100 columns, exist, and their formulas are accepted. -/
theorem matmul_total {p : Nat} (hpn : p = n ∨ p = 1) (hv : shape = [p] ∧ d = 1 ∨ shape = [p, d])
    (hp : ProperRed .sum (matProg K oid src shape)) (hl : K.IsLazy) (hK : K.dim = 1)
    (h : K.Fits [] m n) (hf : K.NoFraction) (hd : d ≤ 100) {i j : Nat} (hh : K.Holds data) (hdef : K.Def data i j) :
    ∃ c ex, matmul K oid src shape = some c ∧ Runs c.f ex ∧ c.nb = 0 := by
  have hdims : matDims shape = [1, p, d] := by rcases hv with ⟨rfl, rfl⟩ | rfl <;> rfl
  have hfit : (matProg K oid src shape).Fits [] m n := by
    refine ⟨.inl hl, (fun h => by cases h), h, ?_, d, fun x hx => ?_⟩
    · rw [hdims]
      exact .inr ⟨[], 1, p, d, rfl, rfl, .inr (hpn.imp (fun h => ⟨rfl, h⟩) fun h => ⟨rfl, h⟩)⟩
    · simp only [PyE.dim, hdims, hK, List.mem_cons, List.not_mem_nil, or_false] at hx
      simpa using hx
  have hdim : (matProg K oid src shape).dim ≤ 100 := by
    simp only [matProg, PyE.dim, Spec.PyOp.dim, hK, hdims]
    exact Nat.max_le.2 ⟨by omega, hd⟩
  obtain ⟨c, hc, -, ex, hx⟩ := C81_reductions (r := .sum) (a := 1) hp trivial (by simp) hfit ⟨hf, trivial, fun h => by cases h⟩
    (fun w h => by cases h) (data := data) (i := i) (j := j) ⟨hh, trivial⟩ ⟨hdef, trivial, trivial⟩
    (fun w h => by cases h) (by decide) (fun _ => hdim) (fun K h => by simp at h) (fun h => by simp [PyRed.weight] at h)
  obtain ⟨⟨hpos, -⟩, hzero, hargs, hfresh, -⟩ := hp.self
  obtain ⟨v, hr, ⟨L, hL, hnd, -⟩, hlv⟩ := tot_of_fits (by simp) h hpos (noZero_op hzero).1 hargs.1
  obtain ⟨e, rfl⟩ := hlv hl
  obtain ⟨v', hr', ⟨L', hL', -, -, hsz, -⟩, hlv'⟩ := tot_of_fits (by simp) hfit hp.self.pos hp.self.zero hp.self.args
  obtain ⟨e', rfl⟩ := hlv' trivial
  have hL : eval e = some L := hL
  have hL' : eval e' = some L' := hL'
  have hnb' : L'.nbatchdims = 0 := by
    have := hsz.batch.length
    simpa [LazyT.nbatchdims] using this
  have hnb : nbatch (matProg K oid src shape) = L'.nbatchdims := by
    rw [nbatch, hr']
    simp only [hL', Option.map_some, Option.getD_some]
  rw [hnb] at hc
  refine ⟨c, ex, ?_, hx, ?_⟩
  · simp only [matmul, hr, Option.bind_some, ndim, hL, Option.map_some, hr', hL']
    rw [if_neg (not_not.2 (hnd.trans hK))]
    exact hc
  · simp only [redCall, hr', Option.bind_some, hL', weightOf, PyRed.weight] at hc
    split at hc
    · cases hc
    · simp only [Option.bind_eq_some_iff, Option.map_eq_some_iff] at hc
      obtain ⟨x, hx, s, hs, k, hk, z, hz, rfl⟩ := hc
      simpa using hnb'

/-- **C83**, from beginning to end: for a lazy tensor of numbers whose sizes are compatible, and in which one divides only by
parameters and by programs whose value is not a constant, `K.matvec(v)` and `K.rmatvec(w)` raise no exception, end, and are
`A v` and `Aᵀ w` for the matrix `A` of the numbers `K(i, j)`, with all the summation schemes and schedules. -/
theorem C83_total (hv : shape = [n] ∧ d = 1 ∨ shape = [n, d]) (hw : shape' = [m] ∧ d = 1 ∨ shape' = [m, d])
    (hp : ProperRed .sum (matProg K oid src shape)) (hp' : ProperRed .sum (matProg (.t fresh K) oid' src' shape'))
    (hl : K.IsLazy) (hK : K.dim = 1) (h : K.Fits [] m n) (hf : K.NoFraction) (hd : d ≤ 100) (hm : 0 < m) (hn : 0 < n)
    (hh : K.Holds data) (hdef : ∀ i < m, ∀ j < n, K.Def data i j) (P : PostNum ℝ) (sch : SumScheme) :
    ∃ c c' ex ex' S S', matvec K oid src shape = some c ∧ rmatvec fresh K oid' src' shape' = some c' ∧ Runs c.f ex ∧
      Runs c'.f ex' ∧ getScheme (sumRed (V := ℝ) ex.dim) sch = some S ∧ getScheme (sumRed (V := ℝ) ex'.dim) sch = some S' ∧
      ∀ M : CMath, M.Exact → ∀ junk out,
        (∃ y, Exec (sumRed ex.dim) S (ex.call id id M junk c.cat.toNat m n (given data c.srcs)) out y) ∧
        (∃ z, Exec (sumRed ex'.dim) S' (ex'.call id id M junk c'.cat.toNat n m (given data c'.srcs)) out z) ∧
        ∀ y z, Exec (sumRed ex.dim) S (ex.call id id M junk c.cat.toNat m n (given data c.srcs)) out y →
          Exec (sumRed ex'.dim) S' (ex'.call id id M junk c'.cat.toNat n m (given data c'.srcs)) out z →
          Gives P ex.dim (fun i : Fin m => y.shift (i * ex.dim)) (kernelMatrix K data m n * arrayMatrix data src n d) ∧
          Gives P ex'.dim (fun j : Fin n => z.shift (j * ex'.dim))
            ((kernelMatrix K data m n)ᵀ * arrayMatrix data src' m d) := by
  obtain ⟨c, ex, hc, hx, hnb⟩ := matmul_total (.inl rfl) hv hp hl hK h hf hd hh (hdef 0 hm 0 hn)
  obtain ⟨c', ex', hc', hx', hnb'⟩ := matmul_total (m := n) (n := m) (K := .t fresh K) (data := data) (.inl rfl) hw hp' trivial hK ⟨hl, h⟩ hf hd
    hh (hdef 0 hm 0 hn)
  have col : ∀ {s : List Nat} {a : Nat}, s = [a] ∧ d = 1 ∨ s = [a, d] → Columns s a d := fun h =>
    h.imp_right fun e => ⟨[], e⟩
  obtain ⟨S, S', hS, hS', hall⟩ := C83_partial (m := m) (n := n) (col hv) (col hw) hp hp' hc hc' hx hx' hh hdef P sch
  refine ⟨c, c', ex, ex', S, S', hc, hc', hx, hx', hS, hS', fun M hM junk out =>
    ⟨exec_exists_gpu _ _ _ out, exec_exists_gpu _ _ _ out, fun y z hy hz => ?_⟩⟩
  obtain ⟨Y, Z, hY, hZ, rfl, rfl, -⟩ := hall _ _ (fun i => .dense (a := 1) hnb hM hy i.2)
    (fun j => .dense (a := 1) hnb' hM hz j.2)
  exact ⟨hY, hZ⟩

/-! ## The hypotheses can be met -/

/-- `(-((x_i - y_j)**2).sum(-1)).exp()`, with 5 points `x` and 7 points `y` of dimension 3. -/
abbrev exK : PyE := .m1 .exp exScore

theorem exK_proper : Proper exK where
  pos := by simp [exScore, PyE.Pos]
  zero := by simp [exScore, PyE.NoZero]
  args := by simp [exScore, PyE.LazyArgs]
  fresh := by simp [exScore, Fresh]
  ids := ids_of (by decide +kernel)

theorem exMv_proper : ProperRed .sum (matProg exK 1004 3 [7]) where
  self :=
    { pos := by simp [matProg, exScore, PyE.Pos, matDims]
      zero := by simp [matProg, exScore, PyE.NoZero, PyE.IsZero]
      args := by simp [matProg, exScore, PyE.LazyArgs]
      fresh := by simp [matProg, exScore, Fresh]
      ids := ids_of (by decide +kernel) }
  weight := fun w h => by cases h
  ids := fun w e e' L W h => by cases h

theorem exRmv_proper : ProperRed .sum (matProg (.t (· + 2000) exK) 1005 4 [5]) where
  self :=
    { pos := by simp [matProg, exScore, PyE.Pos, matDims]
      zero := by simp [matProg, exScore, PyE.NoZero, PyE.IsZero]
      args := by simp [matProg, exScore, PyE.LazyArgs]
      fresh := ⟨(proper_t exK_proper (by decide +kernel) (by decide +kernel)).fresh, fun h => by cases h⟩
      ids := ids_of (by decide +kernel) }
  weight := fun w h => by cases h
  ids := fun w e e' L W h => by cases h

/-- The routine of `K.matvec(v)`. -/
def exMvC : RedCall :=
  ⟨.sum, .bin .mul (.un .exp exScoreT) (.var 2 1 1), 0,
    [⟨1000, 0, [5, 3], false, 0⟩, ⟨1001, 1, [7, 3], false, 1⟩, ⟨1004, 3, [7, 1], false, 1⟩], 0⟩

theorem exMv_call : matvec exK 1004 3 [7] = some exMvC := by decide +kernel

/-- The routine of `K.rmatvec(w)`: the categories of `x` and `y` are exchanged. -/
def exRmvC : RedCall :=
  ⟨.sum, .bin .mul (.un .exp (.un .minus (.un .sum (.un .square (.bin .sub (.var 0 3 1) (.var 1 3 0)))))) (.var 2 1 1), 0,
    [⟨2000, 0, [5, 3], false, 1⟩, ⟨2001, 1, [7, 3], false, 0⟩, ⟨1005, 4, [5, 1], false, 1⟩], 0⟩

theorem exRmv_call : rmatvec (· + 2000) exK 1005 4 [5] = some exRmvC := by decide +kernel

/-- The formulas that are run. -/
def exMvE : Expr :=
  .bin .mul (.var 2 1 1) (.un .exp (.un .minus (.un .sum (.un .square (.bin .sub (.var 0 3 0) (.var 1 3 1))))))

@[inherit_doc exMvE]
def exRmvE : Expr :=
  .bin .mul (.var 2 1 1) (.un .exp (.un .minus (.un .sum (.un .square (.bin .sub (.var 0 3 1) (.var 1 3 0))))))

/-- Gaussian kernel matrix: both products have executions, and for all executions `⟨w, K.matvec(v)⟩ = ⟨K.rmatvec(w), v⟩`. -/
example (data : Data) (out : Mem ℝ) (P : PostNum ℝ) :
    (∃ a, Exec (sumRed 1) (directScheme (sumRed 1))
      (exMvE.call id id realMath (fun _ _ => 0) 0 5 7 (given data [0, 1, 3])) out a) ∧
    (∃ b, Exec (sumRed 1) (directScheme (sumRed 1))
      (exRmvE.call id id realMath (fun _ _ => 0) 0 7 5 (given data [0, 1, 4])) out b) ∧
    ∀ a b, Exec (sumRed 1) (directScheme (sumRed 1))
        (exMvE.call id id realMath (fun _ _ => 0) 0 5 7 (given data [0, 1, 3])) out a →
      Exec (sumRed 1) (directScheme (sumRed 1))
        (exRmvE.call id id realMath (fun _ _ => 0) 0 7 5 (given data [0, 1, 4])) out b →
      ∃ (Y : Matrix (Fin 5) (Fin 1) ℝ) (Z : Matrix (Fin 7) (Fin 1) ℝ), Gives P 1 (fun i => a.shift (i * 1)) Y ∧
        Gives P 1 (fun j => b.shift (j * 1)) Z ∧
        Y = kernelMatrix exK data 5 7 * arrayMatrix data 3 7 1 ∧
        ∑ i : Fin 5, data 4 i * Y i 0 = ∑ j : Fin 7, Z j 0 * data 3 j := by
  refine ⟨exec_exists_gpu _ _ _ out, exec_exists_gpu _ _ _ out, fun a b ha hb => ?_⟩
  obtain ⟨S, S', hS, hS', hall⟩ := C83_partial (m := 5) (n := 7) (d := 1) (data := data) (.inl ⟨rfl, rfl⟩) (.inl ⟨rfl, rfl⟩)
    exMv_proper exRmv_proper exMv_call exRmv_call (⟨20, exMvE, by decide +kernel, .inl rfl⟩ : Runs exMvC.f exMvE)
    (⟨20, exRmvE, by decide +kernel, .inl rfl⟩ : Runs exRmvC.f exRmvE) (by simp [exScore, PyE.Holds])
    (fun i _ j _ => by simp [exScore, PyE.Def, Spec.PyM1.Def, Spec.PyOp.Def]) P .direct
  cases hS
  cases hS'
  obtain ⟨Y, Z, hY, hZ, h1, -, h2⟩ := hall _ _ (fun i => .dense (a := 1) rfl realMath_exact ha i.2)
    (fun j => .dense (a := 1) rfl realMath_exact hb j.2)
  refine ⟨Y, Z, hY, hZ, h1, ?_⟩
  simpa [arrayMatrix] using h2 0 0

/-- So does `C83_total`. -/
example : exK.IsLazy ∧ exK.dim = 1 ∧ exK.Fits [] 5 7 ∧ exK.NoFraction ∧ ∀ data, exK.Holds data ∧ ∀ i j, exK.Def data i j := by
  have h : Spec.Alike [3, 3] := ⟨3, by simp⟩
  refine ⟨trivial, rfl, ?_, by simp [exScore, PyE.NoFraction], fun data => ⟨by simp [exScore, PyE.Holds], fun i j => by
    simp [exScore, PyE.Def, Spec.PyM1.Def, Spec.PyOp.Def]⟩⟩
  simp [exScore, PyE.Fits, PyE.IsLazy, Spec.FitsShape, Spec.PyOp.Fits, PyE.dim, PyE.IsExponent, h]

end Verif.Lazy
