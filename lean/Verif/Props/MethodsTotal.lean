import Verif.Props.RedAccept

/-!
# C62 from beginning to end

The reductions of programs whose sizes are compatible raise no exception, end, and give the values they are named after: C81 and
C62 together. No ranges and no batch dimensions.
-/

namespace Verif.Lazy

open Spec (PyE PyRed rowsOut rowsRed)

variable {r : PyRed} {p w : PyE} {data : Data} {m n a : Nat}

/-- The lazy tensor `p`, with `m` rows and `n` columns, can be reduced by `r` along the axis `a`: the sizes of the arrays are
compatible, one divides only by parameters and by programs whose value is not a constant, and the values are defined. -/
structure Ready (r : PyRed) (p : PyE) (data : Data) (m n a : Nat) : Prop where
  proper : ProperRed r p
  lazy : p.IsLazy
  fits : p.Fits [] m n
  fraction : p.NoFraction
  weight : ∀ w, r.weight = some w → w.IsLazy ∧ w.Fits [] m n ∧ w.NoFraction
  domain : Domain r p data m n
  axis : a < 2
  rows : 0 < m
  columns : 0 < n
  sum : r = .sum → p.dim ≤ 100
  size : ∀ K, r = .kmin K ∨ r = .argkmin K ∨ r = .kminArgkmin K → 0 < K
  scalar : r = .logsumexp ∨ r.weight ≠ none → p.dim = 1

/-- The reduction `r` of `p` along the axis `a` raises no exception; the routine that is called, with the reduction `R` of the
rows (a function of the dimension of its formula), ends in all the execution environments, and row `i` of all its possible outputs
satisfies `post`. -/
def Computes {V : Type} (r : PyRed) (p : PyE) (enc : ℝ → V) (dec : V → ℝ) (data : Data) (m n a : Nat) (R : Nat → Red V)
    (sch : SumScheme) (post : Nat → Nat → Mem V → Prop) : Prop :=
  ∃ c ex S, redCall r p a = some c ∧ Runs c.f ex ∧ getScheme (R ex.dim) sch = some S ∧
    ∀ M : CMath, M.Exact → ∀ junk out,
      (∃ y, Exec (R ex.dim) S (ex.call enc dec M junk c.cat.toNat m n fun p q => enc (given data c.srcs p q)) out y) ∧
      ∀ y, Exec (R ex.dim) S (ex.call enc dec M junk c.cat.toNat m n fun p q => enc (given data c.srcs p q)) out y →
        ∀ i < rowsOut a m n, post (R ex.dim).dim i (y.shift (i * (R ex.dim).dim))

theorem join_nbatch {x y z : LazyT} (h : join x y = some z) (hx : x.nbatchdims = 0) (hy : y.nbatchdims = 0) :
    z.nbatchdims = 0 := by
  simp only [join, Option.bind_eq_bind, Option.bind_eq_some_iff, Option.pure_def, Option.some.injEq] at h
  obtain ⟨ni, -, nj, -, b, hb, rfl⟩ := h
  simp only [LazyT.nbatchdims] at hx hy ⊢
  cases hxb : x.batchdims with
  | none =>
    simp only [hxb, checkBroadcasting, Option.some.injEq] at hb
    rwa [← hb]
  | some u =>
    cases hyb : y.batchdims with
    | none =>
      simp only [hxb, hyb, checkBroadcasting, Option.some.injEq] at hb
      rw [hxb] at hx
      rwa [← hb]
    | some v =>
      simp only [hxb, hyb, Option.getD_some, List.length_eq_zero_iff] at hx hy
      simp only [hxb, hyb, checkBroadcasting, hx, hy, Option.ite_none_left_eq_some, Option.some.injEq] at hb
      obtain ⟨-, rfl⟩ := hb
      rfl

/-- The routine exists. -/
theorem Ready.call (h : Ready r p data m n a) : nbatch p = 0 ∧
    ∃ c ex, redCall r p (nbatch p + a) = some c ∧ Runs c.f ex ∧ c.nb = 0 := by
  obtain ⟨c, hc, -, ex, hx⟩ := C81_reductions h.proper h.lazy (by simp) h.fits h.fraction h.weight h.domain.holds
    (h.domain.defined 0 h.rows 0 h.columns) (fun w e => ⟨(h.domain.weight w e).1, (h.domain.weight w e).2 0 h.rows 0 h.columns⟩)
    h.axis h.sum h.size h.scalar
  obtain ⟨v, hr, ⟨L, hL, -, -, hsz, -⟩, hlv⟩ := tot_of_fits (by simp) h.fits h.proper.self.pos h.proper.self.zero h.proper.self.args
  obtain ⟨e, rfl⟩ := hlv h.lazy
  have hL : eval e = some L := hL
  have hnb : L.nbatchdims = 0 := by
    have := hsz.batch.length
    simpa [LazyT.nbatchdims] using this
  have hz : nbatch p = 0 := by
    rw [nbatch, hr]
    simpa only [hL, Option.map_some, Option.getD_some] using hnb
  refine ⟨hz, c, ex, hc, hx, ?_⟩
  simp only [redCall, hr, Option.bind_some, hL] at hc
  obtain ⟨W, hW, hc⟩ := Option.bind_eq_some_iff.1 hc
  split at hc
  · cases hc
  simp only [Option.bind_eq_some_iff, Option.map_eq_some_iff] at hc
  obtain ⟨x, hx, s, hs, k, hk, z, hz, rfl⟩ := hc
  cases hwr : r.weight with
  | none =>
    simp only [weightOf, hwr, Option.some.injEq] at hW
    subst hW
    simpa using hnb
  | some w =>
    obtain ⟨w1, w2, w3, w4⟩ := h.proper.weight w hwr
    obtain ⟨v', hr', ⟨L', hL', -, -, hsz', -⟩, hlv'⟩ := tot_of_fits (by simp) (h.weight w hwr).2.1 w1 w2 w3
    obtain ⟨e', rfl⟩ := hlv' (h.weight w hwr).1
    have hL' : eval e' = some L' := hL'
    have hnb' : L'.nbatchdims = 0 := by
      have := hsz'.batch.length
      simpa [LazyT.nbatchdims] using this
    simp only [weightOf, hwr, hr', Option.bind_some, hL', Option.map_some, Option.some.injEq] at hW
    subst hW
    simp only [Option.bind_some]
    cases hj : join L L' with
    | none => simpa using hnb
    | some R => simpa using join_nbatch hj hnb hnb'

/-- From the statements of C62 on rows to the outputs of the calls. -/
theorem Ready.computes {V : Type} {enc : ℝ → V} {dec : V → ℝ} {R : Nat → Red V} {sch : SumScheme} {post : Nat → Nat → Mem V → Prop}
    (h : Ready r p data m n a)
    (hall : ∀ {c ex}, redCall r p (nbatch p + a) = some c → Runs c.f ex → ∃ S, getScheme (R ex.dim) sch = some S ∧ ∀ i row,
      OutRow r p enc dec c ex (R ex.dim) S data m n a (List.range (rowsRed a m n)) i row → post (R ex.dim).dim i row) :
    Computes r p enc dec data m n a R sch post := by
  obtain ⟨hz, c, ex, hc, hx, hnb⟩ := h.call
  obtain ⟨S, hS, hrow⟩ := hall hc hx
  refine ⟨c, ex, S, by rw [hz, Nat.zero_add] at hc; exact hc, hx, hS,
    fun M hM junk out => ⟨exec_exists_gpu _ _ _ out, fun y hy i hi => ?_⟩⟩
  exact hrow i _ (.dense hnb hM hy hi)

theorem Ready.ne (h : Ready r p data m n a) : List.range (rowsRed a m n) ≠ [] := by
  have h1 := h.rows
  have h2 := h.columns
  rw [Ne, List.range_eq_nil, rowsRed]
  split <;> omega

/-- **C62**, sums, from beginning to end. -/
theorem C62_sum_total (h : Ready .sum p data m n a) (P : PostNum ℝ) (sch : SumScheme) :
    Computes .sum p id id data m n a (fun d => sumRed d) sch fun d i row =>
      ∃ arr, postprocess P (redOp .sum) (optArg .sum) d row = some [arr] ∧ arr.shape = [p.dim] ∧ ∀ k < p.dim,
        arr.get k = ((List.range (rowsRed a m n)).map fun j => p.along data a i j k).sum :=
  h.computes fun hc hx =>
    have ⟨_, S, hS, hall⟩ := C62_sum h.proper hc hx h.domain P sch
    ⟨S, hS, fun i row ho => hall _ i row ho⟩

/-- **C62**, minima, from beginning to end. -/
theorem C62_min_total (h : Ready .min p data m n a) (P : PostNum EReal) :
    Computes .min p Real.toEReal EReal.toReal data m n a (fun d => minRed d) .direct fun d i row =>
      ∃ arr, postprocess P (redOp .min) (optArg .min) d row = some [arr] ∧ arr.shape = [p.dim] ∧ ∀ k < p.dim, ∃ x : ℝ,
        arr.get k = x ∧ IsLeast {y | ∃ j ∈ List.range (rowsRed a m n), y = p.along data a i j k} x :=
  h.computes fun hc hx =>
    have ⟨_, S, hS, hall⟩ := C62_min h.proper hc hx h.domain P
    ⟨S, hS, fun i row ho => hall _ i row ho h.ne⟩

/-- **C62**, maxima, from beginning to end. -/
theorem C62_max_total (h : Ready .max p data m n a) (P : PostNum EReal) :
    Computes .max p Real.toEReal EReal.toReal data m n a (fun d => maxRed d) .direct fun d i row =>
      ∃ arr, postprocess P (redOp .max) (optArg .max) d row = some [arr] ∧ arr.shape = [p.dim] ∧ ∀ k < p.dim, ∃ x : ℝ,
        arr.get k = x ∧ IsGreatest {y | ∃ j ∈ List.range (rowsRed a m n), y = p.along data a i j k} x :=
  h.computes fun hc hx =>
    have ⟨_, S, hS, hall⟩ := C62_max h.proper hc hx h.domain P
    ⟨S, hS, fun i row ho => hall _ i row ho h.ne⟩

/-- **C62**, minima with their indices, from beginning to end. -/
theorem C62_min_argmin_total (h : Ready .minArgmin p data m n a) (P : PostNum EReal) (cast : Nat → EReal) :
    Computes .minArgmin p Real.toEReal EReal.toReal data m n a (fun d => minArgMinRed cast d) .direct fun d i row =>
      ∃ vals inds, postprocess P (redOp .minArgmin) (optArg .minArgmin) d row = some [vals, inds] ∧ vals.shape = [p.dim] ∧
        inds.shape = [p.dim] ∧ ∀ k < p.dim, ∃ j, FirstLeast (List.range (rowsRed a m n)) (fun l => p.along data a i l k) j ∧
          vals.get k = (p.along data a i j k : ℝ) ∧ inds.get k = P.long (cast j) :=
  h.computes fun hc hx =>
    have ⟨_, S, hS, hall⟩ := C62_min_argmin h.proper hc hx h.domain P cast
    ⟨S, hS, fun i row ho => hall _ i row ho h.ne⟩

/-- **C62**, maxima with their indices, from beginning to end. -/
theorem C62_max_argmax_total (h : Ready .maxArgmax p data m n a) (P : PostNum EReal) (cast : Nat → EReal) :
    Computes .maxArgmax p Real.toEReal EReal.toReal data m n a (fun d => maxArgMaxRed cast d) .direct fun d i row =>
      ∃ vals inds, postprocess P (redOp .maxArgmax) (optArg .maxArgmax) d row = some [vals, inds] ∧ vals.shape = [p.dim] ∧
        inds.shape = [p.dim] ∧ ∀ k < p.dim, ∃ j,
          FirstGreatest (List.range (rowsRed a m n)) (fun l => p.along data a i l k) j ∧
          vals.get k = (p.along data a i j k : ℝ) ∧ inds.get k = P.long (cast j) :=
  h.computes fun hc hx =>
    have ⟨_, S, hS, hall⟩ := C62_max_argmax h.proper hc hx h.domain P cast
    ⟨S, hS, fun i row ho => hall _ i row ho h.ne⟩

/-- **C62**, indices of minima, from beginning to end. -/
theorem C62_argmin_total (h : Ready .argmin p data m n a) (P : PostNum EReal) (cast : Nat → EReal) :
    Computes .argmin p Real.toEReal EReal.toReal data m n a (fun d => argMinRed cast d) .direct fun d i row =>
      ∃ arr, postprocess P (redOp .argmin) (optArg .argmin) d row = some [arr] ∧ arr.shape = [p.dim] ∧ ∀ k < p.dim, ∃ j,
        FirstLeast (List.range (rowsRed a m n)) (fun l => p.along data a i l k) j ∧ arr.get k = P.long (cast j) :=
  h.computes fun hc hx =>
    have ⟨_, S, hS, hall⟩ := C62_argmin h.proper hc hx h.domain P cast
    ⟨S, hS, fun i row ho => hall _ i row ho h.ne⟩

/-- **C62**, indices of maxima, from beginning to end. -/
theorem C62_argmax_total (h : Ready .argmax p data m n a) (P : PostNum EReal) (cast : Nat → EReal) :
    Computes .argmax p Real.toEReal EReal.toReal data m n a (fun d => argMaxRed cast d) .direct fun d i row =>
      ∃ arr, postprocess P (redOp .argmax) (optArg .argmax) d row = some [arr] ∧ arr.shape = [p.dim] ∧ ∀ k < p.dim, ∃ j,
        FirstGreatest (List.range (rowsRed a m n)) (fun l => p.along data a i l k) j ∧ arr.get k = P.long (cast j) :=
  h.computes fun hc hx =>
    have ⟨_, S, hS, hall⟩ := C62_argmax h.proper hc hx h.domain P cast
    ⟨S, hS, fun i row ho => hall _ i row ho h.ne⟩

/-- **C62**, the `K` smallest values with their indices, from beginning to end. Past the number of terms, infinity and 0. -/
theorem C62_kmin_argkmin_total {K : Nat} (h : Ready (.kminArgkmin K) p data m n a) (P : PostNum EReal) (cast : Nat → EReal)
    (sch : SumScheme) (hsch : sch ≠ .kahan) :
    Computes (.kminArgkmin K) p Real.toEReal EReal.toReal data m n a (fun d => kminArgKminRed cast d K) sch fun d i row =>
      ∃ vals inds, postprocess P (redOp (.kminArgkmin K)) (optArg (.kminArgkmin K)) d row = some [vals, inds] ∧
        vals.shape = (if p.dim = 1 then [K] else [K, p.dim]) ∧ inds.shape = (if p.dim = 1 then [K] else [K, p.dim]) ∧
        ∀ k < p.dim, ∃ σ, SortedBy (List.range (rowsRed a m n)) (fun l => p.along data a i l k) σ ∧ ∀ l < K,
          (∀ hl : l < σ.length, vals.get (l * p.dim + k) = (p.along data a i σ[l] k : ℝ) ∧
            inds.get (l * p.dim + k) = P.long (cast σ[l])) ∧
          (σ.length ≤ l → vals.get (l * p.dim + k) = ⊤ ∧ inds.get (l * p.dim + k) = P.long (cast 0)) :=
  h.computes fun hc hx =>
    have ⟨_, S, hS, hall⟩ := C62_kmin_argkmin h.proper hc hx h.domain P cast sch hsch
    ⟨S, hS, fun i row ho => hall _ i row ho List.pairwise_lt_range⟩

/-- **C62**, the `K` smallest values, from beginning to end. -/
theorem C62_kmin_total {K : Nat} (h : Ready (.kmin K) p data m n a) (P : PostNum EReal) (cast : Nat → EReal)
    (sch : SumScheme) (hsch : sch ≠ .kahan) :
    Computes (.kmin K) p Real.toEReal EReal.toReal data m n a (fun d => kminRed cast d K) sch fun d i row =>
      ∃ arr, postprocess P (redOp (.kmin K)) (optArg (.kmin K)) d row = some [arr] ∧
        arr.shape = (if p.dim = 1 then [K] else [K, p.dim]) ∧
        ∀ k < p.dim, ∃ σ, SortedBy (List.range (rowsRed a m n)) (fun l => p.along data a i l k) σ ∧ ∀ l < K,
          (∀ hl : l < σ.length, arr.get (l * p.dim + k) = (p.along data a i σ[l] k : ℝ)) ∧
          (σ.length ≤ l → arr.get (l * p.dim + k) = ⊤) :=
  h.computes fun hc hx =>
    have ⟨_, S, hS, hall⟩ := C62_kmin h.proper hc hx h.domain P cast sch hsch
    ⟨S, hS, fun i row ho => hall _ i row ho List.pairwise_lt_range⟩

/-- **C62**, the indices of the `K` smallest values, from beginning to end. -/
theorem C62_argkmin_total {K : Nat} (h : Ready (.argkmin K) p data m n a) (P : PostNum EReal) (cast : Nat → EReal)
    (sch : SumScheme) (hsch : sch ≠ .kahan) :
    Computes (.argkmin K) p Real.toEReal EReal.toReal data m n a (fun d => argKminRed cast d K) sch fun d i row =>
      ∃ arr, postprocess P (redOp (.argkmin K)) (optArg (.argkmin K)) d row = some [arr] ∧
        arr.shape = (if p.dim = 1 then [K] else [K, p.dim]) ∧
        ∀ k < p.dim, ∃ σ, SortedBy (List.range (rowsRed a m n)) (fun l => p.along data a i l k) σ ∧ ∀ l < K,
          (∀ hl : l < σ.length, arr.get (l * p.dim + k) = P.long (cast σ[l])) ∧
          (σ.length ≤ l → arr.get (l * p.dim + k) = P.long (cast 0)) :=
  h.computes fun hc hx =>
    have ⟨_, S, hS, hall⟩ := C62_argkmin h.proper hc hx h.domain P cast sch hsch
    ⟨S, hS, fun i row ho => hall _ i row ho List.pairwise_lt_range⟩

/-- **C62**, log-sum-exp, from beginning to end. -/
theorem C62_logsumexp_total (h : Ready .logsumexp p data m n a) (g : ℝ → XR) (long : XR → XR) (sch : SumScheme)
    (hsch : sch ≠ .kahan) :
    Computes .logsumexp p XR.fin XR.val data m n a (fun _ => @lseRed XR (xrNum g) 1) sch fun d i row =>
      ∃ arr, postprocess (xrPost long) (redOp .logsumexp) (optArg .logsumexp) d row = some [arr] ∧ arr.shape = [1] ∧
        arr.get 0 = XR.fin (Real.log ((List.range (rowsRed a m n)).map fun j => Real.exp (p.along data a i j 0)).sum) :=
  h.computes fun hc hx =>
    have ⟨_, S, hS, hall⟩ := C62_logsumexp h.proper hc hx h.domain g long sch hsch
    ⟨S, hS, fun i row ho => hall _ i row ho h.ne⟩

/-- **C62**, log-sum-exp with weights, from beginning to end. -/
theorem C62_logsumexp_weight_total (h : Ready (.logsumexpW w) p data m n a) (g : ℝ → XR) (long : XR → XR) (sch : SumScheme)
    (hsch : sch ≠ .kahan) :
    Computes (.logsumexpW w) p XR.fin XR.val data m n a (fun _ => @lseRed XR (xrNum g) w.dim) sch fun d i row =>
      ∃ arr, postprocess (xrPost long) (redOp (.logsumexpW w)) (optArg (.logsumexpW w)) d row = some [arr] ∧
        arr.shape = [w.dim] ∧ ∀ k < w.dim, arr.get k = XR.log (XR.fin
          ((List.range (rowsRed a m n)).map fun j => Real.exp (p.along data a i j 0) * w.along data a i j k).sum) :=
  h.computes fun hc hx =>
    have ⟨_, S, hS, hall⟩ := C62_logsumexp_weight h.proper hc hx h.domain g long sch hsch
    ⟨S, hS, fun i row ho => hall _ i row ho h.ne⟩

/-- **C62**, sums weighted by a softmax (attention layers), from beginning to end. -/
theorem C62_sumsoftmaxweight_total (h : Ready (.sumsoftmaxweight w) p data m n a) (g : ℝ → XR) (long : XR → XR)
    (sch : SumScheme) (hsch : sch ≠ .kahan) :
    Computes (.sumsoftmaxweight w) p XR.fin XR.val data m n a (fun _ => @lseRed XR (xrNum g) (1 + w.dim)) sch fun d i row =>
      ∃ arr, postprocess (xrPost long) (redOp (.sumsoftmaxweight w)) (optArg (.sumsoftmaxweight w)) d row = some [arr] ∧
        arr.shape = [w.dim] ∧ ∀ k < w.dim, arr.get k = XR.fin
          (((List.range (rowsRed a m n)).map fun j => Real.exp (p.along data a i j 0) * w.along data a i j k).sum /
            ((List.range (rowsRed a m n)).map fun j => Real.exp (p.along data a i j 0)).sum) :=
  h.computes fun hc hx =>
    have ⟨_, S, hS, hall⟩ := C62_sumsoftmaxweight h.proper hc hx h.domain g long sch hsch
    ⟨S, hS, fun i row ho => hall _ i row ho h.ne⟩

/-- The hypotheses are met by an attention layer, `(-((x_i - y_j)**2).sum(-1)).sumsoftmaxweight(b_j, axis=1)`, whatever is in the
arrays. -/
theorem exSoftmax_ready (data : Data) : Ready (.sumsoftmaxweight exVals) exScore data 5 7 1 := by
  have h : Spec.Alike [3, 3] := ⟨3, by simp⟩
  refine ⟨exSoftmax_proper, trivial, ?_, by simp [exScore, PyE.NoFraction], ?_,
    ⟨by simp [exScore, PyE.Holds], (fun i _ j _ => by simp [exScore, PyE.Def, Spec.PyM1.Def, Spec.PyOp.Def]), ?_⟩, by decide, by decide,
    by decide, (fun h => by cases h), (fun K h => by simp at h), fun _ => rfl⟩
  · simp [exScore, PyE.Fits, PyE.IsLazy, Spec.FitsShape, Spec.PyOp.Fits, PyE.dim, PyE.IsExponent, h]
  · rintro w ⟨⟩
    exact ⟨trivial, ⟨2, rfl⟩, by simp [exVals, PyE.NoFraction]⟩
  · rintro w ⟨⟩
    simp [exVals, PyE.Holds, PyE.Def]

end Verif.Lazy
