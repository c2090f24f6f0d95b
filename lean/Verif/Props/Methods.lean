import Verif.Proofs.MethodsCall
import Verif.Props.Lazy
import Verif.Props.EndToEnd

/-!
# C60: operators and methods of lazy tensors compute the functions they are named after
-/

namespace Verif.Lazy
open Alias (Str)
open Spec (LExpr LTree PyE PyOp PyM1 PyMi PyM2 PyM3 PlainText rowIJ Stands)
open Parse
open Spec (outRows redRows)

/-- What is supposed of a program: the dimensions are positive; lazy tensors are not multiplied by the number 0
(`not_C60_zero`); the arguments of `concat`, `matvecmult`, `vecmatmult` and `tensorprod` are lazy tensors
(`not_C60_concat`); the parameters are vectors; the objects that hold the arrays have distinct identities, which are
large numbers (addresses), and `x.t()` makes new objects. -/
structure Proper (p : PyE) : Prop where
  pos : p.Pos
  zero : p.NoZero
  args : p.LazyArgs
  fresh : Fresh p
  ids : ∀ e L, run p = some (.lazy e) → eval e = some L →
    Distinct L.tensors ∧ ∀ a ∈ L.tensors, L.tensors.length ≤ a.id

/-- The arrays passed to the routine. -/
def given (data : Data) (srcs : List Nat) : Nat → Nat → ℝ := fun p q => data (srcs.getD p 0) q

/-- A lemma for the theorems below. -/
theorem calls_main {p : PyE} (hp : Proper p) {e : LExpr} {L : LazyT} (hr : run p = some (.lazy e))
  (hL : eval e = some L) :
    ∃ (t : Term) (f : Str) (vars : List LTensor), reduction L none = some (f, [], vars) ∧
      (∀ (redop : Str) (cat : Nat), IsName redop → parseRed (genredText redop f [] cat []) =
        some (redop ++ "_Reduction".toList, [.term t, .num cat])) ∧
      t.Pos ∧ t.Inputs ∧ t.dim = p.dim ∧ L.ndim = p.dim ∧ (∀ v ∈ t.vars, v.1.toNat < vars.length) ∧
      ∀ data, ∃ env : Nat → Nat → Env, ∀ i j,
        (∀ v ∈ t.vars, ∀ k, env i j v.1 k =
          given data (vars.map fun a => a.src) v.1.toNat (rowIJ v.2.2.toNat i j * v.2.1 + k)) ∧
        (p.Holds data → p.Def data i j → t.Def (env i j) ∧ t.val (env i j) = p.val data i j) := by
  obtain ⟨hsem, -, -, -⟩ := good_of_run hr hp.pos hp.zero hp.args hp.fresh
  obtain ⟨hd, hid⟩ := hp.ids e L hr hL
  obtain ⟨hnd, hsy⟩ := hsem.ndim L hL
  obtain ⟨T, vars, h1, h2, -⟩ := C26_aliases e hsem.ok L hL hsy hd hid
  have hdata : T.map (fun p => (vars.map argOf)[p]?.map Spec.Arg.src) = e.tree.map some := by
    have := h2.data
    simpa using this
  have hsingle : ∀ p d c d' c', (p, d, c) ∈ T.leaves → (p, d', c') ∈ T.leaves → d = d' ∧ c = c' := by
    have := h2.single
    simpa using this
  obtain ⟨t, ht, htp, htd, hts⟩ := hsem.sem _ T hdata
  have hvars := denotes_vars ht
  refine ⟨t, T.text id, vars, h1, fun redop cat hred => ?_, htp, ⟨?_, ?_, ?_⟩, htd, hnd, fun v hv => ?_, fun data => ?_⟩
  · have := parseRed_text ht hred [] cat
    simpa [genredText] using this
  · intro v hv
    obtain ⟨l, _, rfl⟩ := hvars v hv
    exact Int.natCast_nonneg _
  · intro v hv
    obtain ⟨l, hl, rfl⟩ := hvars v hv
    obtain ⟨T', hT', et⟩ := eval_rel e hsem.ok L hL
    obtain ⟨s, _, hs⟩ := leaves_of_data hdata l hl
    rw [← et, leaves_map] at hs
    obtain ⟨l', hl', e'⟩ := List.mem_map.1 hs
    simp only [Prod.mk.injEq] at e'
    have := hT'.cat l' hl'
    rw [e'.2.2] at this
    show (l.2.2 : Int) = 0 ∨ (l.2.2 : Int) = 1 ∨ (l.2.2 : Int) = 2
    omega
  · intro u hu v hv huv
    obtain ⟨⟨p, d, c⟩, hl, rfl⟩ := hvars u hu
    obtain ⟨⟨p', d', c'⟩, hl', rfl⟩ := hvars v hv
    simp only [Nat.cast_inj] at huv
    subst huv
    obtain ⟨rfl, rfl⟩ := hsingle _ _ _ _ _ hl hl'
    rfl
  · obtain ⟨l, hl, rfl⟩ := hvars v hv
    obtain ⟨s, hs, _⟩ := leaves_of_data hdata l hl
    simp only [Option.map_eq_some_iff] at hs
    obtain ⟨a, ha, _⟩ := hs
    have := List.getElem?_eq_some_iff.1 ha
    simpa using this.1
  · refine ⟨fun i j => envOf T (given data (vars.map fun a => a.src)) i j, fun i j =>
      ⟨fun v hv k => ?_, fun hh hdef => ?_⟩⟩
    · obtain ⟨l, hl, rfl⟩ := hvars v hv
      simpa using envOf_leaf hsingle _ i j hl k
    · refine hts data i j _ (fun l hl s hs k => ?_) ⟨hh, hdef⟩
      dsimp only at hs ⊢
      rw [envOf_leaf hsingle _ i j hl k]
      unfold given
      have : (vars.map fun a => a.src).getD l.1 0 = s := by
        simp only [List.getElem?_map, Option.map_map, Option.map_eq_some_iff] at hs
        obtain ⟨a, ha, rfl⟩ := hs
        simp [List.getD_eq_getElem?_getD, ha, argOf]
      rw [this]

/-- **C60**, existence: the text written by a program can be read again by the routine. -/
theorem C60_call {p : PyE} (hp : Proper p) {e : LExpr} {L : LazyT} (hr : run p = some (.lazy e)) (hL : eval e = some L)
    (hb : L.nbatchdims = 0) {redop : Str} (hn : IsName redop) (hs : redop = "Sum".toList → recOf e = none) (cat : Nat) :
    ∃ t srcs, callOf p redop cat = some (t, srcs) := by
  obtain ⟨t, f, vars, h1, h2, -⟩ := calls_main hp hr hL
  refine ⟨t, vars.map fun a => a.src, ?_⟩
  have hcond : ¬ (L.nbatchdims ≠ 0 ∨ (redop = "Sum".toList ∧ (recOf e).isSome)) := by
    rintro (h | ⟨h, h'⟩)
    · exact h hb
    · rw [hs h] at h'
      cases h'
  simp only [callOf, hr, hL, Option.bind_some, h1, h2 redop cat hn]
  rw [if_neg hcond, if_pos ⟨trivial, trivial⟩]

/-- **C60**, dimensions: the attribute `ndim` of the lazy tensor is the dimension of the vectors for which it stands. -/
theorem C60_ndim {p : PyE} (hp : Proper p) {e : LExpr} {d : Nat} (hr : run p = some (.lazy e)) (hd : ndim e = some d) :
    d = p.dim := by
  simp only [ndim, Option.map_eq_some_iff] at hd
  obtain ⟨L, hL, rfl⟩ := hd
  obtain ⟨t, f, vars, -, -, -, -, -, h, -⟩ := calls_main hp hr hL
  exact h

/-- **C60**, without numbers 0 and without arrays as arguments of `concat`, `matvecmult`, `vecmatmult` and `tensorprod`:
the formula run by the routine for the program `p` has the dimension announced by the documentation, and on the arrays
that are passed to the routine it has the values of the functions after which the operators and methods are named.
`env i j` are the values of the variables at row `i` and column `j`. -/
theorem C60_partial {p : PyE} (hp : Proper p) {redop : Str} (hn : IsName redop) {cat : Nat} {t : Term} {srcs : List Nat}
    (h : callOf p redop cat = some (t, srcs)) :
    t.Pos ∧ t.Inputs ∧ t.dim = p.dim ∧ (∀ v ∈ t.vars, v.1.toNat < srcs.length) ∧
      ∀ data, ∃ env : Nat → Nat → Env, ∀ i j,
        (∀ v ∈ t.vars, ∀ k, env i j v.1 k =
          given data srcs v.1.toNat (rowIJ v.2.2.toNat i j * v.2.1 + k)) ∧
        (p.Holds data → p.Def data i j → t.Def (env i j) ∧ t.val (env i j) = p.val data i j) := by
  simp only [callOf, Option.bind_eq_some_iff] at h
  obtain ⟨v, hr, h⟩ := h
  cases v with
  | lazy e =>
    simp only [Option.bind_eq_some_iff] at h
    obtain ⟨L, hL, h⟩ := h
    obtain ⟨t', f, vars, h1, h2, hpos, hin, hdim, -, hlen, hval⟩ := calls_main hp hr hL
    split at h
    · cases h
    · simp only [h1, Option.bind_some, h2 redop cat hn, Option.ite_none_right_eq_some, Option.some.injEq,
        Prod.mk.injEq] at h
      obtain ⟨-, rfl, rfl⟩ := h
      exact ⟨hpos, hin, hdim, by simpa using hlen, hval⟩
  | _ => cases h

/-- **C60**, put together with **C52**: the hypotheses of the theorems about whole computations are met. -/
theorem C60_setting {p : PyE} (hp : Proper p) {redop : Str} (hn : IsName redop) {tagI : Nat} (ht : tagI < 2) {t : Term}
    {srcs : List Nat} (h : callOf p redop tagI = some (t, srcs)) {ex : Expr} (hx : Runs t ex) {m n : Nat} {data : Data}
    (hh : p.Holds data) (hd : ∀ i < m, ∀ j < n, p.Def data i j) :
    t.dim = p.dim ∧ ∃ env, Setting t ex tagI m n (given data srcs) env ∧
      ∀ i < outRows tagI m n, ∀ j < redRows tagI m n,
        t.val (env i j) = if tagI = 0 then p.val data i j else p.val data j i := by
  obtain ⟨hpos, hin, hdim, -, hval⟩ := C60_partial hp hn h
  obtain ⟨env, henv⟩ := hval data
  have hdef : ∀ i < outRows tagI m n, ∀ j < redRows tagI m n,
      if tagI = 0 then p.Def data i j else p.Def data j i := by
    obtain rfl | rfl : tagI = 0 ∨ tagI = 1 := by omega
    · exact fun i hi j hj => hd i hi j hj
    · exact fun i hi j hj => hd j hj i hi
  refine ⟨hdim, fun i j => if tagI = 0 then env i j else env j i, ⟨hpos, hin, hx, ht, fun i _ j _ v hv k _ => ?_,
    fun i hi j hj => ?_⟩, fun i hi j hj => ?_⟩
  · have hc := hin.cat v hv
    rw [row_rowIJ ht (by omega)]
    split_ifs with h0
    · exact (henv i j).1 v hv k
    · exact (henv j i).1 v hv k
  · have := hdef i hi j hj
    split_ifs with h0
    · rw [if_pos h0] at this
      exact ((henv i j).2 hh this).1
    · rw [if_neg h0] at this
      exact ((henv j i).2 hh this).1
  · have := hdef i hi j hj
    split_ifs with h0
    · rw [if_pos h0] at this
      exact ((henv i j).2 hh this).2
    · rw [if_neg h0] at this
      exact ((henv j i).2 hh this).2

/-- **C60**, sums along `axis=1`: `p.sum(axis=1)` is `Σ_j p(i, j)`, for all programs `p`, summation schemes and schedules. -/
theorem C60_sum_axis1 {p : PyE} (hp : Proper p) {t : Term} {srcs : List Nat}
    (h : callOf p "Sum".toList 0 = some (t, srcs))
    {ex : Expr} (hx : Runs t ex) {m n : Nat} {data : Data} (hh : p.Holds data)
    (hd : ∀ i < m, ∀ j < n, p.Def data i j) (sch : SumScheme) :
    ∃ S, getScheme (sumRed (V := ℝ) ex.dim) sch = some S ∧ ∀ M : CMath, M.Exact → ∀ junk out out',
      Exec (sumRed ex.dim) S (ex.call id id M junk 0 m n (given data srcs)) out out' →
      ∀ i < m, ∀ k < p.dim, out' (i * p.dim + k) = ∑ j ∈ Finset.range n, p.val data i j k := by
  obtain ⟨hdim, env, hset, hval⟩ := C60_setting hp (isName_of (by decide +kernel)) (by omega) h hx hh hd
  obtain ⟨S, hS, hsum⟩ := C52_sum hset sch
  refine ⟨S, hS, fun M hM junk out out' he i hi k hk => ?_⟩
  have := (hsum M hM junk out out' he).1 i hi k (hdim ▸ hk)
  rw [hdim] at this
  rw [this]
  refine Finset.sum_congr rfl fun j hj => ?_
  rw [hval i hi j (Finset.mem_range.1 hj), if_pos rfl]

/-- **C60**, sums along `axis=0`: `p.sum(axis=0)` is `Σ_i p(i, j)`. -/
theorem C60_sum_axis0 {p : PyE} (hp : Proper p) {t : Term} {srcs : List Nat}
    (h : callOf p "Sum".toList 1 = some (t, srcs))
    {ex : Expr} (hx : Runs t ex) {m n : Nat} {data : Data} (hh : p.Holds data)
    (hd : ∀ i < m, ∀ j < n, p.Def data i j) (sch : SumScheme) :
    ∃ S, getScheme (sumRed (V := ℝ) ex.dim) sch = some S ∧ ∀ M : CMath, M.Exact → ∀ junk out out',
      Exec (sumRed ex.dim) S (ex.call id id M junk 1 m n (given data srcs)) out out' →
      ∀ j < n, ∀ k < p.dim, out' (j * p.dim + k) = ∑ i ∈ Finset.range m, p.val data i j k := by
  obtain ⟨hdim, env, hset, hval⟩ := C60_setting hp (isName_of (by decide +kernel)) (by omega) h hx hh hd
  obtain ⟨S, hS, hsum⟩ := C52_sum hset sch
  refine ⟨S, hS, fun M hM junk out out' he i hi k hk => ?_⟩
  have := (hsum M hM junk out out' he).1 i hi k (hdim ▸ hk)
  rw [hdim] at this
  rw [this]
  refine Finset.sum_congr rfl fun j hj => ?_
  rw [hval i hi j (Finset.mem_range.1 hj), if_neg (by decide)]

/-- **C60**, indices of minima along `axis=1`: `p.argmin(axis=1)` is the first `j` at which `p(i, j)` is smallest. -/
theorem C60_argmin_axis1 {p : PyE} (hp : Proper p) {t : Term} {srcs : List Nat}
    (h : callOf p "ArgMin".toList 0 = some (t, srcs))
    {ex : Expr} (hx : Runs t ex) {m n : Nat} (hn : 0 < n) {data : Data} (hh : p.Holds data)
    (hd : ∀ i < m, ∀ j < n, p.Def data i j) (cast : Nat → EReal) :
    ∃ S, getScheme (argMinRed cast ex.dim) .direct = some S ∧ ∀ M : CMath, M.Exact → ∀ junk out out',
      Exec (argMinRed cast ex.dim) S
        (ex.call Real.toEReal EReal.toReal M junk 0 m n fun p q => (given data srcs p q : EReal)) out out' →
      ∀ i < m, ∀ k < p.dim, ∃ j < n, out' (i * p.dim + k) = cast j ∧
        (∀ l < n, p.val data i j k ≤ p.val data i l k) ∧ ∀ l < j, p.val data i j k < p.val data i l k := by
  obtain ⟨hdim, env, hset, hval⟩ := C60_setting hp (isName_of (by decide +kernel)) (by omega) h hx hh hd
  obtain ⟨S, hS, hmin⟩ := C52_argmin hset hn cast
  refine ⟨S, hS, fun M hM junk out out' he i hi k hk => ?_⟩
  obtain ⟨j, hj, h1, h2, h3⟩ := hmin M hM junk out out' he i hi k (hdim ▸ hk)
  rw [hdim] at h1
  refine ⟨j, hj, h1, fun l hl => ?_, fun l hl => ?_⟩
  · have := h2 l hl
    rwa [hval i hi j hj, hval i hi l hl, if_pos rfl, if_pos rfl] at this
  · have hl' : l < n := lt_trans hl hj
    have := h3 l hl
    rwa [hval i hi j hj, hval i hi l hl', if_pos rfl, if_pos rfl] at this

/-! ## The hypotheses can be met -/

deriving instance DecidableEq for Term

/-- `((-((x_i - y_j)**2).sum(-1) / 2.5).exp() * b_j)`, with 5 points `x`, 7 points `y` of dimension 3 and 7 vectors `b` of
dimension 2. -/
def exGauss : PyE :=
  .op .mul (.m1 .exp (.op .div (.m1 .neg (.m1 .sum (.op .pow (.op .sub (.lazy 1000 0 [5, 3] (some 0))
    (.lazy 1001 1 [7, 3] (some 1))) (.int 2)))) (.float 1002 2 (5 / 2)))) (.lazy 1003 3 [7, 2] (some 1))

/-- Its formula. -/
def exGaussT : Term :=
  .bin .mul (.un .exp (.bin .div (.un .minus (.un .sum (.un .square (.bin .sub (.var 0 3 0) (.var 1 3 1)))))
    (.var 2 1 2))) (.var 3 2 1)

theorem exGauss_call : callOf exGauss "Sum".toList 0 = some (exGaussT, [0, 1, 2, 3]) := by decide +kernel

/-- Decidable form of the condition on identities. -/
def idsOk (p : PyE) : Bool :=
  match run p with
  | some (.lazy e) =>
    match eval e with
    | some L => L.tensors.all fun a => decide (L.tensors.length ≤ a.id) && L.tensors.all fun b => a.id ≠ b.id || a = b
    | none => true
  | _ => true

theorem ids_of {p : PyE} (h : idsOk p = true) : ∀ e L, run p = some (.lazy e) → eval e = some L →
    Distinct L.tensors ∧ ∀ a ∈ L.tensors, L.tensors.length ≤ a.id := by
  intro e L h1 h2
  simp only [idsOk, h1, h2, List.all_eq_true, Bool.and_eq_true, decide_eq_true_eq, Bool.or_eq_true] at h
  exact ⟨fun a ha b hb hab => ((h a ha).2 b hb).resolve_left fun h => h hab, fun a ha => (h a ha).1⟩

theorem exGauss_proper : Proper exGauss where
  pos := by simp [exGauss, PyE.Pos]
  zero := by simp [exGauss, PyE.NoZero, PyE.IsZero]
  args := by simp [exGauss, PyE.LazyArgs]
  fresh := by simp [exGauss, Fresh]
  ids := ids_of (by decide +kernel)

/-- The formula that is run. -/
def exGaussE : Expr :=
  .bin .mul (.un .exp (.bin .div (.un .minus (.un .sum (.un .square (.bin .sub (.var 0 3 0) (.var 1 3 1)))))
    (.var 2 1 2))) (.var 3 2 1)

theorem exGauss_runs : Runs exGaussT exGaussE := ⟨20, exGaussE, by decide +kernel, .inl rfl⟩

/-- A Gaussian convolution: `Σ_j exp(-|x_i - y_j|² / 2.5) b_j`. There are executions. -/
example (data : Data) (h : data 2 0 = 5 / 2) (out : Mem ℝ) :
    (∃ out', Exec (sumRed 2) (directScheme (sumRed 2))
      (exGaussE.call id id realMath (fun _ _ => 0) 0 5 7 (given data [0, 1, 2, 3])) out out') ∧
    ∀ out', Exec (sumRed 2) (directScheme (sumRed 2))
        (exGaussE.call id id realMath (fun _ _ => 0) 0 5 7 (given data [0, 1, 2, 3])) out out' →
      ∀ i < 5, ∀ k < 2, out' (i * 2 + k) = ∑ j ∈ Finset.range 7,
        Real.exp (-(∑ c ∈ Finset.range 3, (data 0 (i * 3 + c) - data 1 (j * 3 + c)) ^ 2) / (5 / 2)) *
          data 3 (j * 2 + k) := by
  refine ⟨exec_exists_gpu _ _ _ out, fun out' he i hi k hk => ?_⟩
  have hq : ((5 / 2 : ℚ) : ℝ) = 5 / 2 := by norm_num
  have hH : exGauss.Holds data := by
    simp only [exGauss, PyE.Holds, true_and, and_true, hq]
    exact h
  obtain ⟨S, hS, hsum⟩ := C60_sum_axis1 (m := 5) (n := 7) exGauss_proper exGauss_call exGauss_runs hH
    (fun i _ j _ => by simp [exGauss, PyE.Def, PyM1.Def, PyOp.Def, PyE.dim, PyE.val]) .direct
  cases hS
  have := hsum realMath realMath_exact _ out out' he i hi k hk
  rw [show exGauss.dim = 2 from rfl] at this
  rw [this]
  refine Finset.sum_congr rfl fun j _ => ?_
  have e1 : i * 3 + 0 = i * 3 := rfl
  simp [exGauss, PyE.val, PyOp.val, PyM1.val, PyE.dim, Spec.readVec, Spec.arrayCat, rowIJ, Spec.cst, PyM1.dim, PyOp.dim,
    zpow_ofNat, hq]

/-- `(x_i - y_j).t() * 2`, with 5 points `x` and 5 points `y`. -/
def exT : PyE :=
  .op .mul (.t (fun k => 3000 + k) (.op .sub (.lazy 1000 0 [5, 3] (some 0)) (.lazy 1001 1 [5, 3] (some 1)))) (.int 2)

theorem exT_proper : Proper exT where
  pos := by simp [exT, PyE.Pos]
  zero := by simp [exT, PyE.NoZero, PyE.IsZero]
  args := by simp [exT, PyE.LazyArgs]
  fresh := by
    refine ⟨⟨⟨by simp [Fresh], by simp [Fresh]⟩, fun e he => ?_⟩, trivial⟩
    obtain rfl := Val.lazy.inj (Option.some.inj (show some (.lazy _) = some (Val.lazy e) from he))
    refine ⟨⟨plainText_of_no_V (by decide), by simp, fun h => by simp at h, fun h => by simp at h⟩, fun L hL => ?_⟩
    obtain rfl := Option.some.inj (show some _ = some L from hL)
    refine ⟨?_, fun k _ a ha => ?_, fun k _ k' _ h => by simpa using h, fun a _ s hs => by
      simp [LExpr.tree, LTree.symbs, Val.toLazy] at hs⟩
    · unfold Distinct
      decide +kernel
    · have h : ∀ a ∈ [(⟨1000, 0, [5, 3], false, 0⟩ : LTensor), ⟨1001, 1, [5, 3], false, 1⟩], a.id < 3000 := by decide +kernel
      have := h a ha
      show 3000 + k ≠ a.id
      omega
  ids := ids_of (by decide +kernel)

/-- In the formula the categories are exchanged: the vector at `(i, j)` is `2 (x_j - y_i)`. -/
example : callOf exT "Sum".toList 0 =
      some (.bin .mul (.bin .sub (.var 0 3 1) (.var 1 3 0)) (.int 2), [0, 1]) ∧
    ∀ data i j k, k < 3 → exT.val data i j k = (data 0 (j * 3 + k) - data 1 (i * 3 + k)) * 2 := by
  refine ⟨by decide +kernel, fun data i j k _ => ?_⟩
  simp [exT, PyE.val, PyOp.val, Spec.readVec, Spec.arrayCat, rowIJ, Spec.cst]

/-! ## What does not hold -/

/-- **Not C60** for products with the number 0: for three-dimensional points `x` and numbers `y`, `y_j + x_i * 0` is the
lazy tensor `y_j`, whose dimension is 1 instead of 3, since `x_i * 0` is the Python integer 0; and `(x_i * 0).exp()` raises
an exception. -/
theorem not_C60_zero :
    ∃ x y : PyE, x.IsLazy ∧ y.IsLazy ∧ (PyE.op .add y (.op .mul x (.int 0))).dim = 3 ∧
      (∃ e, run (.op .add y (.op .mul x (.int 0))) = some (.lazy e) ∧ ndim e = some 1) ∧
      run (.m1 .exp (.op .mul x (.int 0))) = none :=
  ⟨.lazy 1000 0 [5, 3] (some 0), .lazy 1001 1 [7, 1] (some 1), trivial, trivial, rfl, ⟨_, rfl, rfl⟩, rfl⟩

/-- **Not C60** for sums of such programs: for 5 numbers `x` and 7 numbers `y`, the sum over `i` of `y_j + x_i * 0` should be
`5 y_j`, but the routine that is called has the formula `Var(0,1,1)` and the single argument `y`: it does not know the
number of rows `i`. -/
theorem not_C60_zero_sum (x y p : PyE) (hx : x = .lazy 1000 0 [5, 1] (some 0)) (hy : y = .lazy 1001 1 [7, 1] (some 1))
    (hp : p = .op .add y (.op .mul x (.int 0))) :
    callOf p "Sum".toList 1 = some (.var 0 1 1, [1]) ∧
      ∀ data j, ∑ i ∈ Finset.range 5, p.val data i j 0 = 5 * data 1 j := by
  subst hx hy hp
  refine ⟨by decide +kernel, fun data j => ?_⟩
  simp [PyE.val, PyOp.val, PyE.dim, Spec.readVec, Spec.arrayCat, rowIJ, Spec.cst]

/-- **Not C60** for `concat` with an array: the dimension announced for `x.concat(a)`, where `x` has dimension 3 and `a` is a vector with 4 entries, is 4 instead
of 7: it is computed from the number of axes of `a`. The formula has dimension 7. -/
theorem not_C60_concat :
    ∃ p : PyE, p.Pos ∧ p.NoZero ∧ p.dim = 7 ∧ (∃ e, run p = some (.lazy e) ∧ ndim e = some 4) ∧
      ∃ t srcs, callOf p "Sum".toList 0 = some (t, srcs) ∧ t.dim = 7 :=
  ⟨.m2 .concat (.lazy 1000 0 [5, 3] (some 0)) (.array 1001 1 [4]), by simp [PyE.Pos], by simp [PyE.NoZero], rfl,
    ⟨_, rfl, rfl⟩, .bin .concat (.var 0 3 0) (.var 1 4 2), [0, 1], by decide +kernel, rfl⟩

end Verif.Lazy
