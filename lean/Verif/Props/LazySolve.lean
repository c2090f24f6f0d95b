import Verif.Proofs.LazySolve

/-!
# C69: `K.solve(b)` solves the linear system that is written
-/

namespace Verif.Lazy
open Alias (Str)
open Spec (LExpr LTree PyE PyOp PyM1 rowIJ outRows redRows)
open Parse Cg.Spec Finset

/-- What is supposed of a call `K.solve(b)`, where `K` is a program as in **C60** (the identities of the objects leave room
for the unknown), `k` and `vars` are the solver and the arrays passed after the second member `b`, and `ex` is the formula
that is run.  There are no batch dimensions, `N` rows and `N` columns, the vectors `b_i` are of dimension `D`, and the entries of `K` are numbers
or vectors of dimension `D`; they are defined at all pairs `(i, j)`. -/
structure SolveCase (K : PyE) (data : Data) (N D axis : Nat) (k : Solver) (vars args : List LTensor) (b : LTensor)
    (ex : Expr) : Prop where
  proper : Proper K
  prog : ∃ e o s user, run K = some (.lazy e) ∧ (∀ L, eval e = some L → ∀ a ∈ L.tensors, L.tensors.length < a.id) ∧
    solve e o = some s ∧ s.routine = some (k, vars) ∧ s.other.ndim = D ∧ s.axis = axis ∧ s.args user vars = args ∧
    s.res.nbatchdims = 0
  second : args = b :: vars
  pos : 0 < D
  dim : K.dim = 1 ∨ K.dim = D
  runs : Runs k.f ex
  holds : K.Holds data
  defined : ∀ i < N, ∀ j < N, K.Def data i j

/-- The arrays of the arguments. -/
def contents (data : Data) (args : List LTensor) : List (Mem ℝ) := args.map fun a => data a.src

section

variable {K : PyE} {data : Data} {N D axis : Nat} {k : Solver} {vars args : List LTensor} {b : LTensor} {ex : Expr}

/-- The operator given to the conjugate gradient is the matrix of `K`, plus `alpha` times the identity. -/
theorem SolveCase.computes (h : SolveCase K data N D axis k vars args b ex) (sch : SumScheme) :
    ∃ S, getScheme (sumRed (V := ℝ) ex.dim) sch = some S ∧ ∀ M : CMath, M.Exact → ∀ (alpha : ℝ)
      (linop : Cg.Arr (N * D) → Cg.Arr (N * D)),
      Linop M ex S k.cat.toNat N (contents data args) k.pos alpha linop →
      Cg.Spec.Computes linop (kmat (N * D) D (fun i j => K.along data axis i j) +
        alpha • (1 : Matrix (Fin (N * D)) (Fin (N * D)) ℝ)) := by
  obtain ⟨e, o, s, user, hr, hid, hs, hk, rfl, rfl, -, -⟩ := h.prog
  obtain ⟨ha, hpos, -, hcat, -, ls, t, hls, hf, ht1, ht2, ht3, ht4⟩ := solve_inside h.proper hr hid hs hk
  have hDp := h.pos
  have hc : k.cat.toNat = axis2cat s.axis := by simp [hcat]
  set ls' := (0, s.other.ndim, s.axis) :: ls with hls'
  have hdim : k.f.dim = s.other.ndim := by
    rw [hf]
    simp only [Term.dim, Bin.dim, ht2]
    rcases h.dim with hd | hd <;> rw [hd] <;> omega
  have hset : ∀ x : Mem ℝ, Setting k.f ex (axis2cat s.axis) N N
      (fun p => (x :: contents data vars).getD p fun _ => 0)
      (envA ls' (fun p => (x :: contents data vars).getD p fun _ => 0) s.axis) ∧
      ∀ i < N, ∀ j < N, ∀ l, k.f.val (envA ls' (fun p => (x :: contents data vars).getD p fun _ => 0) s.axis i j) l =
        K.along data s.axis i j l * Spec.cst s.other.ndim (fun l => x (j * s.other.ndim + l)) l := by
    intro x
    set args' : Nat → Nat → ℝ := fun p => (x :: contents data vars).getD p fun _ => 0 with hargs'
    have hmem : (0, s.other.ndim, s.axis) ∈ ls' := by simp [hls']
    have hsem : ∀ i < N, ∀ j < N, t.Def (envL ls' args' i j) ∧ t.val (envL ls' args' i j) = K.val data i j :=
      fun i hi j hj => ht4 args' data (fun p hp => by
        simp only [hargs', contents, List.getD_cons_succ]
        simp [List.getD_eq_getElem?_getD, hp]) i j h.holds (h.defined i hi j hj)
    have hvars : ∀ v ∈ k.f.vars, ∃ l ∈ ls', v = ((l.1 : Int), l.2.1, (l.2.2 : Int)) := by
      intro v hv
      rw [hf] at hv
      simp only [Term.vars, List.mem_append, List.mem_singleton] at hv
      rcases hv with hv | rfl
      · obtain ⟨l, hl, rfl⟩ := ht3 v hv
        exact ⟨l, List.mem_cons_of_mem _ hl, rfl⟩
      · exact ⟨_, hmem, rfl⟩
    have hto : TermOf ls' [] k.f k.f.dim (fun _ _ _ _ => 0) (fun _ _ _ => False) :=
      ⟨by rw [hf]; exact ⟨ht1, hDp⟩, rfl, hvars, fun _ _ _ h => h.elim⟩
    obtain ⟨hin, -⟩ := hto.inputs hls
    have hdef : ∀ i < N, ∀ j < N, k.f.Def (envL ls' args' i j) := fun i hi j hj => by
      rw [hf]
      exact ⟨(hsem i hi j hj).1, trivial, trivial⟩
    have hval : ∀ i < N, ∀ j < N, ∀ l, k.f.val (envL ls' args' i j) l =
        K.val data i j l * Spec.cst s.other.ndim (fun l => x (rowIJ s.axis i j * s.other.ndim + l)) l := by
      intro i hi j hj l
      rw [hf]
      simp only [Term.val, Spec.binVal, (hsem i hi j hj).2]
      have : envL ls' args' i j 0 = fun l => x (rowIJ s.axis i j * s.other.ndim + l) := by
        funext l
        exact envL_leaf hls args' i j hmem l
      rw [this]
    have hrow : ∀ (i j : Nat), ∀ v ∈ k.f.vars, ∀ l < v.2.1, envA ls' args' s.axis i j v.1 l =
        args' v.1.toNat (Spec.row (axis2cat s.axis) i j v.2.2.toNat * v.2.1 + l) := by
      intro i j v hv l _
      obtain ⟨l', hm, rfl⟩ := hvars v hv
      have hc' := hls.cat l' hm
      obtain h0 | h1 : s.axis = 0 ∨ s.axis = 1 := by omega
      · rw [h0, row_rowIJ (by decide) (by simpa using hc')]
        simp only [axis2cat, envA, Int.toNat_natCast]
        exact envL_leaf hls _ _ _ hm l
      · rw [h1, row_rowIJ (by decide) (by simpa using hc')]
        simp only [axis2cat, envA, Int.toNat_natCast]
        exact envL_leaf hls _ _ _ hm l
    refine ⟨⟨hto.pos, hin, h.runs, ?_, fun i _ j _ => hrow i j, fun i hi j hj => ?_⟩, fun i hi j hj l => ?_⟩
    · obtain h0 | h1 : s.axis = 0 ∨ s.axis = 1 := by omega
      · rw [h0]; decide
      · rw [h1]; decide
    · have hi' : i < N := by
        unfold outRows at hi
        split at hi <;> exact hi
      have hj' : j < N := by
        unfold redRows at hj
        split at hj <;> exact hj
      unfold envA
      split
      · exact hdef j hj' i hi'
      · exact hdef i hi' j hj'
    · obtain h0 | h1 : s.axis = 0 ∨ s.axis = 1 := by omega
      · simp only [envA, PyE.along, h0, if_true]
        rw [h0] at hval
        exact hval j hj i hi l
      · simp only [envA, PyE.along, h1, if_neg Nat.one_ne_zero]
        rw [h1] at hval
        exact hval i hi j hj l
  obtain ⟨S, hS, -⟩ := C52_sum (hset fun _ => 0).1 sch
  refine ⟨S, hS, fun M hM alpha linop hl x => ?_⟩
  funext q
  obtain ⟨junk, out, out', he, hq⟩ := hl x
  have hnew : newargs (contents data args) k.pos (memOf x) = memOf x :: contents data vars := by
    rw [hpos, h.second]
    rfl
  rw [hnew, hc] at he
  obtain ⟨S', hS', hsum⟩ := C52_sum (hset (memOf x)).1 sch
  obtain rfl := Option.some.inj (hS.symm.trans hS')
  obtain ⟨hout, -⟩ := hsum M hM junk out out' he
  rw [show linop (ofReal x) q = _ from hq q]
  simp only [ofReal, Matrix.add_mulVec, Matrix.smul_mulVec, Matrix.one_mulVec, Pi.add_apply, Pi.smul_apply, smul_eq_mul,
    kmat_mulVec]
  have hmod := Nat.mod_lt q.1 hDp
  have hdiv : q.1 / s.other.ndim < N := Nat.div_lt_of_lt_mul (lt_of_lt_of_eq q.2 (Nat.mul_comm _ _))
  have hoN : outRows (axis2cat s.axis) N N = N := by unfold outRows; split <;> rfl
  have hrN : redRows (axis2cat s.axis) N N = N := by unfold redRows; split <;> rfl
  have h1 := hout (q.1 / s.other.ndim) (lt_of_lt_of_eq hdiv hoN.symm)
    (q.1 % s.other.ndim) (lt_of_lt_of_eq hmod hdim.symm)
  rw [hdim, Nat.div_add_mod', hrN] at h1
  have h2 : out' q.1 = ∑ j ∈ range N, K.along data s.axis (q.1 / s.other.ndim) j (q.1 % s.other.ndim) *
      memOf x (j * s.other.ndim + q.1 % s.other.ndim) := by
    rw [h1]
    refine sum_congr rfl fun j hj => ?_
    rw [(hset (memOf x)).2 _ hdiv j (mem_range.1 hj), cst_eq hmod]
  rw [h2]
  unfold ridge
  split
  · rfl
  · rename_i h0
    rw [not_not.1 h0, zero_mul, add_zero]

/-- **C69**, what is returned: for every kernel, second member, `alpha`, `eps`, summation scheme and schedule, if the solver
returns, then it returns numbers `a` such that `Σ_j K(i, j) a_j + alpha a_i` is `b_i`, up to a mean square error below
`eps²`. -/
theorem C69_residual_partial (h : SolveCase K data N D axis k vars args b ex) (sch : SumScheme) :
    ∃ S, getScheme (sumRed (V := ℝ) ex.dim) sch = some S ∧ ∀ M : CMath, M.Exact → ∀ (alpha eps : ℝ)
      (linop : Cg.Arr (N * D) → Cg.Arr (N * D)),
      Linop M ex S k.cat.toNat N (contents data args) k.pos alpha linop → ∀ n y,
      Cg.solve linop (fun q => some (data b.src q)) eps n = some y →
      ∃ a : Nat → ℝ, (∀ q, y q = some (a q)) ∧
        ∑ i ∈ range N, ∑ l ∈ range D, (data b.src (i * D + l) -
          (∑ j ∈ range N, K.along data axis i j l * a (j * D + l) + alpha * a (i * D + l))) ^ 2 <
        ((N * D : Nat) : ℝ) * eps ^ 2 := by
  obtain ⟨S, hS, hc⟩ := h.computes sch
  refine ⟨S, hS, fun M hM alpha eps linop hl n y hy => ?_⟩
  obtain ⟨a, rfl, ha⟩ := Cg.C30_residual (hc M hM alpha linop hl) (fun q => data b.src q) eps n y hy
  refine ⟨memOf a, fun q => by simp only [ofReal, memOf_fin], lt_of_eq_of_lt (Eq.trans ?_
    ((sum_rows N D fun q => (data b.src q - (∑ j ∈ range N, K.along data axis (q / D) j (q % D) * memOf a (j * D + q % D) +
      alpha * memOf a q)) ^ 2).symm.trans (sum_congr rfl fun q _ => ?_))) ha⟩
  rotate_left
  · simp only [Matrix.add_mulVec, Matrix.smul_mulVec, Matrix.one_mulVec, Pi.add_apply, Pi.smul_apply, smul_eq_mul,
      kmat_mulVec, memOf_fin]
  refine sum_congr rfl fun i _ => sum_congr rfl fun l hl => ?_
  have hl := mem_range.1 hl
  rw [show (i * D + l) / D = i by rw [Nat.add_comm, Nat.add_mul_div_right _ _ h.pos, Nat.div_eq_of_lt hl, Nat.zero_add],
    show (i * D + l) % D = l by rw [Nat.mul_add_mod_self_right, Nat.mod_eq_of_lt hl]]

/-- **C69**, termination: if the matrices of `K` are symmetric and non-negative, `alpha` is positive and `eps` is not 0, the
solver returns after at most `N D` iterations. -/
theorem C69_stops_partial (h : SolveCase K data N D axis k vars args b ex) (sch : SumScheme) (hN : 0 < N)
    (hsym : ∀ i < N, ∀ j < N, ∀ l < D, K.along data axis i j l = K.along data axis j i l)
    (hpsd : ∀ l < D, ∀ x : Nat → ℝ, 0 ≤ ∑ i ∈ range N, ∑ j ∈ range N, x i * K.along data axis i j l * x j) :
    ∃ S, getScheme (sumRed (V := ℝ) ex.dim) sch = some S ∧ ∀ M : CMath, M.Exact → ∀ (alpha eps : ℝ)
      (linop : Cg.Arr (N * D) → Cg.Arr (N * D)), 0 < alpha → eps ≠ 0 →
      Linop M ex S k.cat.toNat N (contents data args) k.pos alpha linop →
      ∃ y, Cg.solve linop (fun q => some (data b.src q)) eps (N * D) = some y := by
  obtain ⟨S, hS, hc⟩ := h.computes sch
  refine ⟨S, hS, fun M hM alpha eps linop ha heps hl => ?_⟩
  refine Cg.C30_stops (hc M hM alpha linop hl) (Cg.C30_ridge (fun p q => ?_) (kmat_psd hpsd) ha)
    (Nat.mul_pos hN h.pos) (fun q => data b.src q) heps
  have hd : ∀ p : Fin (N * D), p.1 / D < N := fun p => Nat.div_lt_of_lt_mul (lt_of_lt_of_eq p.2 (Nat.mul_comm _ _))
  unfold kmat
  by_cases e : p.1 % D = q.1 % D
  · rw [if_pos e, if_pos e.symm, ← e]
    exact hsym _ (hd p) _ (hd q) _ (Nat.mod_lt _ h.pos)
  · rw [if_neg e, if_neg (Ne.symm e)]

end

/-- An operator as in the theorems above: the routine can be run on all arrays. -/
theorem linop_exists (M : CMath) (ex : Expr) (S : Scheme ℝ) (cat N : Nat) (args : List (Mem ℝ)) (pos : Nat) (alpha : ℝ)
    (n : Nat) : ∃ linop : Cg.Arr n → Cg.Arr n, Linop M ex S cat N args pos alpha linop := by
  have h : ∀ x : Fin n → ℝ, ∃ out', Exec (sumRed ex.dim) S (ex.call id id M (fun _ _ => 0) cat N N
      fun p => (newargs args pos (memOf x)).getD p fun _ => 0) (fun _ => 0) out' := fun x => exec_exists_cpu ..
  choose f hf using h
  exact ⟨fun y q => some (ridge alpha (f (fun q => (y q).getD 0) q) ((y q).getD 0)),
    fun x => ⟨_, _, _, hf x, fun q => rfl⟩⟩

/-! ## The unknown -/

/-- **C69**, position of the unknown: it comes after the symbolic variables of `K`, and before the arrays, which are counted
from the next position. -/
theorem C69_position {e o : LExpr} {L : LazyT} {s : Solve} {k : Solver} {vars : List LTensor} (hL : eval e = some L)
    (hs : solve e o = some s) (hk : s.routine = some (k, vars)) :
    (∀ v ∈ L.symb, v.1 < k.pos) ∧ (L.symb = [] → k.pos = 0) ∧ newIndex s.res.symb = k.pos + 1 := by
  obtain ⟨L', B, a, hL', -, -, ha, hax, hB, hR, hvf⟩ := solve_some hs
  obtain rfl := Option.some.inj (hL.symm.trans hL')
  obtain ⟨q, pos, c, z, hq, -, -, hpos, hc, hz, rfl⟩ := routine_some hk
  rw [hvf, varinv_var] at hpos
  obtain rfl := Option.some.inj hpos
  refine ⟨fun v hv => lt_newIndex _ _ (List.mem_map_of_mem hv), fun h => by rw [h]; rfl, ?_⟩
  simp only [prodE, eval, hL, Option.bind_some, binary] at hR
  split at hR
  · cases hR
  · simp only [Option.map_eq_some_iff] at hR
    obtain ⟨res, hres, hR⟩ := hR
    have e1 : s.res.symb = L.symb ++ [(newIndex L.symb, B.ndim, 1 - a)] := by
      rw [← hR]
      exact (join_tensors hres).2
    rw [e1]
    have hle : (L.symb.map fun v => v.1).foldl max 0 ≤ newIndex L.symb := by
      unfold newIndex
      split
      · rename_i h
        rw [h]
        exact le_refl _
      · omega
    show newIndex _ = newIndex L.symb + 1
    generalize newIndex L.symb = w at hle ⊢
    unfold newIndex
    rw [if_neg (by simp), List.map_append, List.foldl_append]
    simp only [List.map_cons, List.map_nil, List.foldl_cons, List.foldl_nil]
    omega

theorem stripEnds_spaces (n m : Nat) {s : Str} (h : ' ' ∉ s) :
    stripEnds (List.replicate n ' ' ++ s ++ List.replicate m ' ') = s := by
  have hd : ∀ (n : Nat) (t : Str), (List.replicate n ' ' ++ t).dropWhile (· = ' ') = t.dropWhile (· = ' ') := by
    intro n t
    induction n with
    | zero => rfl
    | succ n ih => simp [List.replicate_succ]
  have hn : ∀ (t u : Str), ' ' ∉ t → t ≠ [] → (t ++ u).dropWhile (· = ' ') = t ++ u := by
    intro t u ht h0
    cases t with
    | nil => exact absurd rfl h0
    | cons c t =>
      have : c ≠ ' ' := fun e => ht (by simp [e])
      simp [this]
  unfold stripEnds
  rw [List.append_assoc, hd]
  by_cases h0 : s = []
  · subst h0
    have := hd m []
    simp only [List.append_nil] at this
    simp [this]
  · rw [hn s _ h h0, List.reverse_append, List.reverse_replicate, hd]
    have := hn s.reverse [] (by simpa using h) (by simpa using h0)
    rw [List.append_nil] at this
    rw [this, List.reverse_reverse]

/-- **C69**, for the class `KernelSolve`: the unknown is the argument whose alias has the given name.  Each alias is
`name = declaration`, with any number of spaces. -/
theorem C69_alias (aliases : List (Str × Nat × Nat × Str)) (h : ∀ a ∈ aliases, '=' ∉ a.1 ∧ ' ' ∉ a.1) (name : Str)
    (hn : name.take 4 ≠ "Var(".toList) :
    varinvPos (aliases.map fun a => List.replicate a.2.1 ' ' ++ a.1 ++ List.replicate a.2.2.1 ' ' ++ '=' :: a.2.2.2)
      (some name) = (aliases.map fun a => a.1).idxOf? name := by
  unfold varinvPos
  rw [Option.bind_some, if_neg hn, List.map_map]
  congr 1
  refine List.map_congr_left fun a ha => ?_
  obtain ⟨h1, h2⟩ := h a ha
  simp only [Function.comp]
  have : beforeEq (List.replicate a.2.1 ' ' ++ a.1 ++ List.replicate a.2.2.1 ' ' ++ '=' :: a.2.2.2) =
      List.replicate a.2.1 ' ' ++ a.1 ++ List.replicate a.2.2.1 ' ' := by
    unfold beforeEq
    rw [if_pos (by simp), List.takeWhile_append_of_pos]
    · simp
    · intro c hc
      simp only [List.mem_append, List.mem_replicate] at hc
      simp only [ne_eq, decide_not, Bool.not_eq_eq_eq_not, Bool.not_true, decide_eq_false_iff_not]
      rintro rfl
      rcases hc with (⟨-, hc⟩ | hc) | ⟨-, hc⟩
      · exact absurd hc (by decide)
      · exact h1 hc
      · exact absurd hc (by decide)
  rw [this, stripEnds_spaces _ _ h2]

example : varinvPos ["x = Vi(3)".toList, "y=Vj(3)".toList, " b = Vj(2)".toList] (some "b".toList) = some 2 := by
  decide +kernel

/-! ## Symbolic kernels -/

/-- **C69** is false for kernels whose variables are all symbolic: `K.solve(b)` is accepted, as in this case
(`K = (x_i | y_j)`), but calling the result raises an exception, whatever the arguments. -/
theorem not_C69_symbolic :
    (∀ s : Solve, s.res.hasDtype = false → s.routine = none) ∧
    ∃ s, solve (.binary ['|'] true (some 1) .same none false (.symb 0 3 0) (.symb 1 3 1)) (.symb 2 2 0) = some s ∧
      s.res.hasDtype = false ∧ s.varformula = "Var(2,2,1)".toList := by
  refine ⟨fun s h => ?_, _, rfl, by decide +kernel, by decide +kernel⟩
  cases hk : s.routine with
  | none => rfl
  | some r =>
    obtain ⟨_, _, _, _, -, -, h', -⟩ := routine_some (k := r.1) (vars := r.2) hk
    rw [h] at h'
    cases h'

/-! ## The hypotheses can be met -/

/-- The kernel `(x_i | x_j)`, for 5 points of dimension 3: the same array is used twice. -/
def exGram : PyE := .op .dot (.lazy 1000 0 [5, 3] (some 0)) (.lazy 1001 0 [5, 3] (some 1))

/-- The second member: 5 vectors of dimension 2. -/
def exB : LTensor := ⟨1004, 3, [5, 2], false, 0⟩

/-- The arrays that are passed after the second member. -/
def exVars : List LTensor := [⟨1000, 0, [5, 3], false, 0⟩, ⟨1001, 0, [5, 3], false, 1⟩]

/-- The solver. -/
def exSolver : Solver := ⟨.sum, .bin .mul (.bin .scalprod (.var 1 3 0) (.var 2 3 1)) (.var 0 2 1), 0, 0⟩

/-- The formula that is run. -/
def exSolveE : Expr := .bin .mul (.bin .scalprod (.var 1 3 0) (.var 2 3 1)) (.var 0 2 1)

theorem exGram_proper : Proper exGram where
  pos := by simp [exGram, PyE.Pos]
  zero := by simp [exGram, PyE.NoZero]
  args := by simp [exGram, PyE.LazyArgs]
  fresh := by simp [exGram, Fresh]
  ids := ids_of (by decide +kernel)

theorem exGram_val (data : Data) (i j l : Nat) :
    exGram.along data 1 i j l = ∑ c ∈ range 3, data 0 (i * 3 + c) * data 0 (j * 3 + c) := by
  simp [exGram, PyE.along, PyE.val, PyOp.val, PyE.dim, Spec.readVec, Spec.arrayCat, rowIJ, Spec.cst]

deriving instance DecidableEq for Solver

theorem exGram_case (data : Data) : SolveCase exGram data 5 2 1 exSolver exVars (exB :: exVars) exB exSolveE where
  proper := exGram_proper
  prog := by
    refine ⟨.binary ['|'] true (some 1) .same none false (.array 1000 0 [5, 3] (some 0)) (.array 1001 0 [5, 3] (some 1)),
      .array 1004 3 [5, 2] (some 0), _, [], rfl, ?_, rfl, by decide +kernel, rfl, rfl, by decide +kernel, by decide +kernel⟩
    intro L hL
    obtain rfl := Option.some.inj hL
    decide +kernel
  second := rfl
  pos := by decide
  dim := .inl (by simp [exGram, PyE.dim, PyOp.dim])
  runs := ⟨20, exSolveE, by decide +kernel, .inl rfl⟩
  holds := by simp [exGram, PyE.Holds]
  defined := fun i _ j _ => by simp [exGram, PyE.Def, PyOp.Def]

/-- Ridge regression with the kernel `(x_i | x_j)`: the operator exists, the solver stops, and what it returns satisfies the
linear system up to `eps`. -/
example (data : Data) (alpha eps : ℝ) (ha : 0 < alpha) (he : eps ≠ 0) :
    ∃ (linop : Cg.Arr 10 → Cg.Arr 10) (y : Cg.Arr 10) (a : Nat → ℝ),
      Linop realMath exSolveE (directScheme (sumRed 2)) 0 5 (contents data (exB :: exVars)) 0 alpha linop ∧
      Cg.solve linop (fun q => some (data 3 q)) eps 10 = some y ∧ (∀ q, y q = some (a q)) ∧
      ∑ i ∈ range 5, ∑ l ∈ range 2, (data 3 (i * 2 + l) -
        (∑ j ∈ range 5, (∑ c ∈ range 3, data 0 (i * 3 + c) * data 0 (j * 3 + c)) * a (j * 2 + l) +
          alpha * a (i * 2 + l))) ^ 2 < 10 * eps ^ 2 := by
  obtain ⟨linop, hl⟩ := linop_exists realMath exSolveE (directScheme (sumRed 2)) 0 5 (contents data (exB :: exVars)) 0
    alpha 10
  have hc := exGram_case data
  obtain ⟨S, hS, h1⟩ := C69_stops_partial hc .direct (by decide) (fun i _ j _ l _ => by
    simp only [exGram_val]
    exact sum_congr rfl fun c _ => mul_comm _ _) (fun l _ x => by
    have e : ∑ i ∈ range 5, ∑ j ∈ range 5, x i * exGram.along data 1 i j l * x j =
        ∑ c ∈ range 3, (∑ i ∈ range 5, x i * data 0 (i * 3 + c)) ^ 2 := by
      simp only [exGram_val, sq, sum_mul_sum, mul_sum, sum_mul]
      rw [sum_comm' (t' := range 5) (s' := fun _ => range 5) (by simp [and_comm])]
      refine (sum_congr rfl fun i _ => sum_comm).trans (sum_comm.trans (sum_congr rfl fun c _ =>
        sum_comm.trans (sum_congr rfl fun i _ => sum_congr rfl fun j _ => ?_)))
      ring
    rw [e]
    exact sum_nonneg fun c _ => sq_nonneg _)
  cases hS
  obtain ⟨y, hy⟩ := h1 realMath realMath_exact alpha eps linop ha he hl
  obtain ⟨S, hS, h2⟩ := C69_residual_partial hc .direct
  cases hS
  obtain ⟨a, h3, h4⟩ := h2 realMath realMath_exact alpha eps linop hl 10 y hy
  refine ⟨linop, y, a, hl, hy, h3, ?_⟩
  simp only [exGram_val] at h4
  exact_mod_cast h4

end Verif.Lazy
