import Verif.Props.MethodsFit
import Verif.Props.Accept
import Verif.Proofs.MethodsAgree

/-!
# C60 and C81: the formulas of programs whose sizes are compatible are accepted
-/

namespace Verif.Lazy
open Alias (Str)
open Spec (LExpr LTree PyE)
open Parse

/-- A lemma for the theorems below. -/
theorem callOf_ok {q : Prop} {p : PyE} (hp : Proper p) {m n : Nat} (h : p.Fits [] m n) (hq : q → p.NoFraction)
    {redop : Str} (hn : IsName redop) {cat : Nat} {t : Term} {srcs : List Nat} (hc : callOf p redop cat = some (t, srcs)) :
    TOk q t := by
  simp only [callOf, Option.bind_eq_some_iff] at hc
  obtain ⟨v, hr, hc⟩ := hc
  cases v with
  | lazy e =>
    simp only [Option.bind_eq_some_iff] at hc
    obtain ⟨L, hL, hc⟩ := hc
    have ha : Agr q e p.dim := agr_of_fits (by simp) h hp.pos hp.zero hp.args hp.fresh hq hr
    obtain ⟨hsem, -, -, -⟩ := good_of_run hr hp.pos hp.zero hp.args hp.fresh
    obtain ⟨hd, hid⟩ := hp.ids e L hr hL
    obtain ⟨hnd, hsy⟩ := hsem.ndim L hL
    obtain ⟨T, vars, h1, h2, -⟩ := C26_aliases e hsem.ok L hL hsy hd hid
    have hdata : T.map (fun p => (vars.map argOf)[p]?.map Spec.Arg.src) = e.tree.map some := by
      have := h2.data
      simpa using this
    have hone : OneVar T := by
      have hs : ∀ p d c d' c', (p, d, c) ∈ T.leaves → (p, d', c') ∈ T.leaves → d = d' ∧ c = c' := by
        have := h2.single
        simpa using this
      rintro ⟨a, d, c⟩ hl ⟨a', d', c'⟩ hl' e
      obtain rfl : a = a' := e
      obtain ⟨rfl, rfl⟩ := hs a d c d' c' hl hl'
      rfl
    obtain ⟨u, hu, -, hok⟩ := ha _ T hone hdata
    have hpar : parseRed (genredText redop (T.text id) [] cat []) =
        some (redop ++ "_Reduction".toList, [.term u, .num cat]) := by
      have := parseRed_text hu hn [] cat
      simpa [genredText] using this
    split at hc
    · cases hc
    · simp only [h1, Option.bind_some, hpar, Option.ite_none_right_eq_some, Option.some.injEq, Prod.mk.injEq] at hc
      obtain ⟨-, rfl, -⟩ := hc
      exact hok
  | _ => cases hc

/-- **C81**, for lazy tensors: the formula built by a program whose sizes are compatible obeys the rules on dimensions of
the documentation of the formulas. -/
theorem C81_lazy_agree {p : PyE} (hp : Proper p) {m n : Nat} (h : p.Fits [] m n) {redop : Str} (hn : IsName redop)
    {cat : Nat} {t : Term} {srcs : List Nat} (hc : callOf p redop cat = some (t, srcs)) :
    t.Pos ∧ t.Agree ∧ t.dim = p.dim := by
  obtain ⟨hpos, -, hdim, -⟩ := C60_partial hp hn hc
  exact ⟨hpos, (callOf_ok (q := False) hp h (fun h => h.elim) hn hc).1, hdim⟩

/-- **C81**, for lazy tensors: a reduction of a program whose sizes are compatible, whose values are defined for some
contents of the arrays, and in which one divides only by parameters and by programs whose value is not a constant,
calls the routine with a formula that is accepted: no exception is raised, neither when the lazy tensor is built nor when
the routine reads its formula. -/
theorem C81_lazy {p : PyE} (hp : Proper p) (hl : p.IsLazy) {m n : Nat} (h : p.Fits [] m n) (hf : p.NoFraction)
    {data : Data} {i j : Nat} (hh : p.Holds data) (hd : p.Def data i j) {redop : Str} (hn : IsName redop)
    (hs : redop = "Sum".toList → p.dim ≤ 100) (cat : Nat) :
    ∃ t srcs, callOf p redop cat = some (t, srcs) ∧ t.Accepted ∧ ∃ ex, Runs t ex := by
  obtain ⟨t, srcs, hc⟩ := C60_total_call hp hl h hn hs cat
  obtain ⟨hpos, -, hdim, -, hval⟩ := C60_partial hp hn hc
  obtain ⟨env, henv⟩ := hval data
  have hok := callOf_ok (q := True) hp h (fun _ => hf) hn hc
  have ha := C81_accept hpos hok.1 (hok.2 trivial) ((henv i j).2 hh hd).1
  refine ⟨t, srcs, hc, ha, ?_⟩
  obtain ⟨n, e, he, -⟩ := ha
  exact ⟨e, n, e, he, .inl rfl⟩

/-- **C81**, for lazy tensors with divisions by integers: the only exception that may be raised is the `AttributeError` of
the sum, or of the difference, of a fraction and an integer. Missing: the formula is accepted (see `not_C81_lazy`). -/
theorem C81_lazy_partial {p : PyE} (hp : Proper p) (hl : p.IsLazy) {m n : Nat} (h : p.Fits [] m n)
    {data : Data} {i j : Nat} (hh : p.Holds data) (hd : p.Def data i j) {redop : Str} (hn : IsName redop)
    (hs : redop = "Sum".toList → p.dim ≤ 100) (cat : Nat) :
    ∃ t srcs, callOf p redop cat = some (t, srcs) ∧ (t.Accepted ∨ t.Raised .attribute) := by
  obtain ⟨t, srcs, hc⟩ := C60_total_call hp hl h hn hs cat
  obtain ⟨hpos, -, hdim, -, hval⟩ := C60_partial hp hn hc
  obtain ⟨env, henv⟩ := hval data
  have hok := callOf_ok (q := False) hp h (fun h => h.elim) hn hc
  exact ⟨t, srcs, hc, C81_partial hpos hok.1 ((henv i j).2 hh hd).1⟩

/-- **C60**, sums along `axis=1`, from beginning to end: for a program whose sizes are compatible, in which one divides only
by parameters and by programs whose value is not a constant, `p.sum(axis=1)` raises no exception, ends, and is
`Σ_j p(i, j)`, for all summation schemes and schedules. `m` and `n` are the numbers of rows and columns. -/
theorem C60_sum_total {p : PyE} (hp : Proper p) (hl : p.IsLazy) {m n : Nat} (h : p.Fits [] m n) (hf : p.NoFraction)
    (hm : 0 < m) (hn : 0 < n) {data : Data} (hh : p.Holds data) (hd : ∀ i < m, ∀ j < n, p.Def data i j)
    (hs : p.dim ≤ 100) (sch : SumScheme) :
    ∃ t srcs ex S, callOf p "Sum".toList 0 = some (t, srcs) ∧ Runs t ex ∧
      getScheme (sumRed (V := ℝ) ex.dim) sch = some S ∧ ∀ M : CMath, M.Exact → ∀ junk out,
        (∃ out', Exec (sumRed ex.dim) S (ex.call id id M junk 0 m n (given data srcs)) out out') ∧
        ∀ out', Exec (sumRed ex.dim) S (ex.call id id M junk 0 m n (given data srcs)) out out' →
          ∀ i < m, ∀ k < p.dim, out' (i * p.dim + k) = ∑ j ∈ Finset.range n, p.val data i j k := by
  obtain ⟨t, srcs, hc, -, ex, hx⟩ := C81_lazy hp hl h hf hh (hd 0 hm 0 hn)
    (redop := "Sum".toList) (isName_of (by decide +kernel)) (fun _ => hs) 0
  obtain ⟨S, hS, hsum⟩ := C60_sum_axis1 hp hc hx hh hd sch
  exact ⟨t, srcs, ex, S, hc, hx, hS, fun M hM junk out => ⟨exec_exists_gpu _ _ _ out, hsum M hM junk out⟩⟩

/-- `x_i / 2 + 3 * x_i`, with 5 points of dimension 3. -/
def exHalf : PyE :=
  .op .add (.op .div (.lazy 1000 0 [5, 3] (some 0)) (.int 2)) (.op .mul (.int 3) (.lazy 1000 0 [5, 3] (some 0)))

/-- **Negation of C81** for lazy tensors: the sums of `x_i / 2 + 3 * x_i` raise an `AttributeError`, although the sizes are
compatible and the values are defined everywhere. -/
theorem not_C81_lazy : Proper exHalf ∧ exHalf.IsLazy ∧ exHalf.Fits [] 5 7 ∧
    (∀ data i j, exHalf.Holds data ∧ exHalf.Def data i j) ∧
    ∃ t srcs, callOf exHalf "Sum".toList 0 = some (t, srcs) ∧ t.Raised .attribute ∧ ¬t.Accepted := by
  refine ⟨⟨by simp [exHalf, PyE.Pos], by simp [exHalf, PyE.NoZero, PyE.IsZero], by simp [exHalf, PyE.LazyArgs],
    by simp [exHalf, Fresh], ids_of (by decide +kernel)⟩, trivial, ?_, fun data i j => ?_, halfPlusThree, [0],
    by decide +kernel, not_C81_fraction.2.2.2.1, not_C81_fraction.2.2.2.2.1⟩
  · have h : ∀ d d' : Nat, d = 1 ∨ d' = 1 ∨ d = d' → Spec.Alike [d, d'] := fun d d' h => by
      refine ⟨if d = 1 then d' else d, fun c hc => ?_⟩
      simp only [List.mem_cons, List.not_mem_nil, or_false] at hc
      split_ifs <;> omega
    simp [exHalf, PyE.Fits, PyE.IsLazy, Spec.FitsShape, Spec.PyOp.Fits, PyE.dim, Spec.PyOp.dim, h]
  · simp [exHalf, PyE.Holds, PyE.Def, Spec.PyOp.Def, PyE.val]

/-- The sums of a Gaussian kernel are accepted: `(-((x_i - y_j)**2).sum(-1) / 2.5).exp() * b_j`. -/
example : exGauss.NoFraction ∧ (∃ data, exGauss.Holds data ∧ exGauss.Def data 0 0) := by
  refine ⟨by simp [exGauss, PyE.NoFraction, PyE.IsParam], fun _ _ => 5 / 2, ?_, ?_⟩
  · simp [exGauss, PyE.Holds]
  · simp [exGauss, PyE.Def, Spec.PyM1.Def, Spec.PyOp.Def, PyE.dim, PyE.val]

/-- So are those of `1 / (1 + |x_i - y_j|²)`: the divisor takes the values 1 and 2. -/
example : (PyE.op .div (.int 1) (.op .add (.int 1) (.m1 .sqnorm2 (.op .sub (.lazy 1000 0 [5, 1] (some 0))
    (.lazy 1001 1 [7, 1] (some 1)))))).NoFraction := by
  simp only [PyE.NoFraction, true_and, and_true, reduceCtorEq, false_implies, forall_const]
  refine .inr ⟨fun _ _ => 0, 0, 0, fun s _ => s, 0, 0, ⟨?_, ?_⟩, ⟨?_, ?_⟩, fun h => ?_⟩
  · simp [PyE.Holds]
  · simp [PyE.Def, Spec.PyM1.Def, Spec.PyOp.Def]
  · simp [PyE.Holds]
  · simp [PyE.Def, Spec.PyM1.Def, Spec.PyOp.Def]
  · have := congrFun h 0
    simp [PyE.val, Spec.PyM1.val, Spec.PyOp.val, Spec.readVec, Spec.cst, Spec.sqLen, PyE.dim, Spec.PyOp.dim] at this

end Verif.Lazy
