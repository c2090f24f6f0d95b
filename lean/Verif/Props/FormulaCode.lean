import Verif.Proofs.FormulaInputs
import Verif.Props.Reductions
import Mathlib.Data.EReal.Basic

/-!
# C02: generated code of formulas; C35, C37: layouts; C52: from the formula to the result
-/

namespace Verif

open Finset Spec

/-- The code generated for `e`, run on tables that contain the values given by `env`, ends without leaving its
arrays, leaves these tables as they are, and writes the `e.dim` components of `y`: for all C libraries that are
exact on the domain of their functions, and all contents of the uninitialised arrays. -/
def Computes (e : Expr) (env : Env) (y : Vec) : Prop :=
  ∀ M : CMath, M.Exact → ∀ (junk : Expr → Nat → ℝ) (tab : Table) (out : CArr), tab.Holds env e →
    out.length = e.dim → ∃ (r : CArr) (tab' : Table), e.code M junk out tab = .ok (r, tab') ∧
      r.length = e.dim ∧ (∀ k < e.dim, r[k]? = some (y k)) ∧ ∀ p < tab.length, tab'[p]? = tab[p]?

theorem Computes.congr {e : Expr} {env : Env} {y z : Vec} (h : Computes e env y) (hyz : ∀ k < e.dim, y k = z k) :
    Computes e env z := fun M hM junk tab out h1 h2 => by
  obtain ⟨r, tab', h3, h4, h5, h6⟩ := h M hM junk tab out h1 h2
  exact ⟨r, tab', h3, h4, fun k hk => by rw [h5 k hk, hyz k hk], h6⟩

/-! ## C02 -/

/-- **C02.**  The number of components written by the code of a formula is the dimension announced for it,
and they are the components of its value. -/
theorem C02_code {e : Expr} {env : Env} (hw : e.WF) (hn : e.Named) (hd : e.Def env) :
    Computes e env (e.val env) := fun M hM junk tab out ht ho => by
  obtain ⟨m, h⟩ := codeOk (junk := junk) hM e env tab out hw hn hd ht ho
  exact ⟨_, _, h, vec_length, fun k hk => by simp [vec, hk], fun p hp => List.getElem?_append_left hp⟩

/-- **C02.**  No data makes the code leave its arrays, or depend on uninitialised memory, even outside the domain
of the operations and with inexact C functions: the formula has the dimension announced, for all `M`, provided that
the positions given to `Elem` and `ElemT` are inside their vectors and that `OneHot`, whose position is data, is
not used (`not_C37`). -/
theorem C02_bounds {e : Expr} {env : Env} {tab : Table} (hw : e.WF) (hn : e.Named) (hr : e.InRange)
    (ht : tab.Holds env e) (M : CMath) :
    ∃ (r : CArr) (tab' : Table), r.length = e.dim ∧ ∀ (junk : Expr → Nat → ℝ) (out : CArr), out.length = e.dim →
      e.code M junk out tab = .ok (r, tab') := by
  obtain ⟨y, m, h⟩ := codeSafe (M := M) e env tab hw hn hr ht
  exact ⟨_, _, vec_length, h⟩

/-- The formulas that are run: the one returned for an expression written by the user, possibly factorized. -/
def Runs (t : Term) (e : Expr) : Prop :=
  ∃ n e₀, t.compile n = .ok e₀ ∧ (e = e₀ ∨ (∃ g, e = factorize e₀ g) ∨ ∃ n, autoFactorize n e₀ = .ok e)

/-- **C02**, for whole expressions: the code writes as many components as announced by the documentation, and
they are those of the expression that was written. -/
theorem C02_term {t : Term} (ht : t.Pos) (hin : t.Inputs) {e : Expr} (h : Runs t e) {env : Env} (hd : t.Def env) :
    e.dim = t.dim ∧ (∀ v ∈ e.free, v ∈ t.vars) ∧ Computes e env (t.val env) := by
  obtain ⟨n, e₀, h, hr⟩ := h
  obtain ⟨hrep, -, hn, hv⟩ := compiled_good ht hin h hr
  obtain ⟨h1, h2⟩ := hrep.sem env hd
  exact ⟨hrep.dim, hv, h2 ▸ C02_code hrep.wf hn h1⟩

/-- `Exp(-|x - y|^2) * b`, a Gaussian kernel with 3-dimensional points. -/
abbrev gauss : Term :=
  .bin .mul (.un .exp (.un .minus (.sqDist (.var 0 3 0) (.var 1 3 1)))) (.var 2 2 1)

/-- The formula that is returned. -/
abbrev gaussE : Expr :=
  .bin .mul (.un .exp (.un .minus (.un .sum (.un .square (.bin .sub (.var 0 3 0) (.var 1 3 1))))))
    (.var 2 2 1)

theorem gauss_runs : Runs gauss gaussE :=
  ⟨20, gaussE, by decide +kernel, .inl rfl⟩

theorem gauss_pos : gauss.Pos := by simp [Term.Pos, Un.dim]

theorem gauss_inputs : gauss.Inputs where
  pos := by simp [Term.vars]
  cat := by simp [Term.vars]
  unique := by simp [Term.vars]

theorem gauss_def (env : Env) : gauss.Def env := by simp [Term.Def, unDef, binDef]

/-- The theorem applies to a Gaussian kernel. -/
example (env : Env) : gaussE.dim = 2 ∧ Computes gaussE env (gauss.val env) :=
  have := C02_term gauss_pos gauss_inputs gauss_runs (gauss_def env)
  ⟨this.1, this.2.2⟩

/-- The hypotheses of `Computes` can be met: there are exact functions, and tables that hold the values. -/
example (env : Env) : (∃ M : CMath, M.Exact) ∧
    Table.Holds [some (vec 3 (env 0)), some (vec 3 (env 1)), some (vec 2 (env 2))] env gaussE :=
  ⟨⟨realMath, realMath_exact⟩, by simp [Table.Holds, Expr.free]⟩

/-- `C02_bounds` applies to formulas that are not defined everywhere, such as `Log(x[1]) / y`. -/
example (env : Env) (M : CMath) : ∃ (r : CArr) (tab' : Table), r.length = 1 ∧
    ∀ (junk : Expr → Nat → ℝ) (out : CArr), out.length = 1 →
      (Expr.bin .div (.un .log (.un (.elem 1) (.var 0 2 0))) (.var 1 1 1)).code M junk out
        [some (vec 2 (env 0)), some (vec 1 (env 1))] = .ok (r, tab') :=
  C02_bounds (e := .bin .div (.un .log (.un (.elem 1) (.var 0 2 0))) (.var 1 1 1)) (env := env)
    (by simp [Expr.WF, Expr.dim, Un.dim, Bin.dim, Un.accept, Bin.accept, dimsOk])
    (by simp [Expr.Named]) (by simp [Expr.InRange, Un.InRange]) (by simp [Table.Holds, Expr.free]) M

/-! ## C35: matrix and tensor products

In all statements `f` and `g` are formulas that can be evaluated. -/

/-- A formula that is accepted and can be evaluated in `env`. -/
structure Valid (e : Expr) (env : Env) : Prop where
  wf : e.WF
  named : e.Named
  defined : e.Def env

section Layout

variable {env : Env} {f g : Expr} (hf : Valid f env) (hg : Valid g env)

theorem Valid.bin {o : Bin} (hf : Valid f env) (hg : Valid g env) (ha : o.accept f.dim g.dim = true)
    (hp : 0 < o.dim f.dim g.dim) (hd : binDef o f.dim g.dim (f.val env) (g.val env)) :
    Valid (.bin o f g) env :=
  ⟨⟨hf.wf, hg.wf, ha, hp⟩, ⟨hf.named, hg.named⟩, hf.defined, hg.defined, hd⟩

theorem Valid.un {o : Un} (hf : Valid f env) (ha : o.accept f.dim = true)
    (hp : 0 < o.dim f.dim) (hs : ∀ n, o ≠ .sumT n) (hd : unDef o f.dim (f.val env)) :
    Valid (.un o f) env :=
  ⟨⟨hf.wf, ha, hp, fun n h => absurd h (hs n)⟩, hf.named, hf.defined, hd⟩

theorem Valid.computes (h : Valid f env) : Computes f env (f.val env) := C02_code h.wf h.named h.defined

theorem cst_eq {d k : Nat} {x : Vec} (hk : k < d) : cst d x k = x k := cst_lt hk

include hf hg

/-- **C35**, `MatVecMult`: an `n × m` matrix given by rows. -/
theorem C35_matVecMult {n m : Nat} (hn : 0 < n) (hfd : f.dim = n * m) (hgd : g.dim = m) :
    mkBin .matVecMult f g = .ok (.bin .matVecMult f g) ∧ (Expr.bin .matVecMult f g).dim = n ∧
    Computes (.bin .matVecMult f g) env fun i => ∑ k ∈ range m, f.val env (i * m + k) * g.val env k := by
  have hm : 0 < m := hgd ▸ hg.wf.pos
  have hdim : (Expr.bin .matVecMult f g).dim = n := by
    simp only [Expr.dim, Bin.dim, hfd, hgd]; exact Nat.mul_div_cancel _ hm
  have ha : Bin.matVecMult.accept f.dim g.dim = true := by simp [Bin.accept, hfd, hgd]
  refine ⟨by simp [mkBin, ha], hdim,
    ((hf.bin hg ha (by have : _ = n := hdim; simp only [Expr.dim] at this; omega) trivial).computes).congr
      fun k hk => ?_⟩
  have hk' : k < f.dim / g.dim := hk
  simp only [Expr.val, binVal]
  rw [cst_eq hk', hgd]

/-- **C35**, `VecMatMult`: an `n × m` matrix given by rows. -/
theorem C35_vecMatMult {n m : Nat} (hm : 0 < m) (hfd : f.dim = n) (hgd : g.dim = n * m) :
    mkBin .vecMatMult f g = .ok (.bin .vecMatMult f g) ∧ (Expr.bin .vecMatMult f g).dim = m ∧
    Computes (.bin .vecMatMult f g) env fun i => ∑ k ∈ range n, f.val env k * g.val env (k * m + i) := by
  have hn : 0 < n := hfd ▸ hf.wf.pos
  have hq : g.dim / f.dim = m := by rw [hgd, hfd]; exact Nat.mul_div_cancel_left _ hn
  have hdim : (Expr.bin .vecMatMult f g).dim = m := hq
  have ha : Bin.vecMatMult.accept f.dim g.dim = true := by simp [Bin.accept, hfd, hgd]
  refine ⟨by simp [mkBin, ha], hdim,
    ((hf.bin hg ha (by have : _ = m := hdim; simp only [Expr.dim] at this; omega) trivial).computes).congr
      fun k hk => ?_⟩
  have hk' : k < g.dim / f.dim := hk
  simp only [Expr.val, binVal]
  rw [cst_eq hk', hq, hfd]

/-- **C35**, `TensorProd`: the entry of row `a` and column `b`. -/
theorem C35_tensorProd :
    mkBin .tensorProd f g = .ok (.bin .tensorProd f g) ∧ (Expr.bin .tensorProd f g).dim = f.dim * g.dim ∧
    ∃ y, Computes (.bin .tensorProd f g) env y ∧
      ∀ a < f.dim, ∀ b < g.dim, y (a * g.dim + b) = f.val env a * g.val env b := by
  refine ⟨by simp [mkBin, Bin.accept], rfl, _,
    (hf.bin (o := .tensorProd) hg rfl (Nat.mul_pos hf.wf.pos hg.wf.pos) trivial).computes, fun a ha b hb => ?_⟩
  simp only [Expr.val, binVal]
  have h0 := hg.wf.pos
  have e1 : (a * g.dim + b) / g.dim = a := by
    rw [Nat.add_comm, Nat.add_mul_div_right _ _ h0, Nat.div_eq_of_lt hb, Nat.zero_add]
  have e2 : (a * g.dim + b) % g.dim = b := by
    rw [Nat.add_comm, Nat.add_mul_mod_self_right, Nat.mod_eq_of_lt hb]
  rw [cst_eq (by nlinarith), e1, e2]

omit hf hg in
/-- The hypotheses are met by a 2 × 3 matrix and a vector. -/
example (env : Env) : Computes (.bin .matVecMult (.var 0 6 0) (.var 1 3 1)) env fun i =>
    ∑ k ∈ range 3, (Expr.var 0 6 0).val env (i * 3 + k) * (Expr.var 1 3 1).val env k :=
  (C35_matVecMult (n := 2) (m := 3) (f := .var 0 6 0) (g := .var 1 3 1) ⟨by simp [Expr.WF], trivial, trivial⟩
    ⟨by simp [Expr.WF], trivial, trivial⟩ (by omega) rfl rfl).2.2

/-! ## C37: indexing operations -/

/-- **C37**, `Concat`. -/
theorem C37_concat : mkBin .concat f g = .ok (.bin .concat f g) ∧ (Expr.bin .concat f g).dim = f.dim + g.dim ∧
    Computes (.bin .concat f g) env fun k => if k < f.dim then f.val env k else g.val env (k - f.dim) := by
  refine ⟨by simp [mkBin, Bin.accept], rfl,
    ((hf.bin (o := .concat) hg rfl (Nat.add_pos_left hf.wf.pos _) trivial).computes).congr fun k hk => ?_⟩
  have hk' : k < f.dim + g.dim := hk
  simp only [Expr.val, binVal]
  rw [cst_eq hk']

omit hg

/-- **C37**, `Elem`: positions after the end are rejected, and positions inside the vector give its entries. -/
theorem C37_elem (m : Int) : (f.dim ≤ m → mkUn (.elem m) f = .error .keops) ∧
    (0 ≤ m → m < f.dim → mkUn (.elem m) f = .ok (.un (.elem m) f) ∧ (Expr.un (.elem m) f).dim = 1 ∧
      Computes (.un (.elem m) f) env fun _ => f.val env m.toNat) := by
  refine ⟨fun h => by simp [mkUn, Un.accept, h], fun h0 h1 => ?_⟩
  have ha : (Un.elem m).accept f.dim = true := by simp [Un.accept, h1]
  exact ⟨by simp [mkUn, ha], rfl, (hf.un ha Nat.one_pos (fun n h => by cases h) h0).computes⟩

/-- **C37**, `ElemT`, at positions inside the vector. -/
theorem C37_elemT (n m : Nat) (hd : f.dim = 1) (hm : m < n) :
    mkUn (.elemT n m) f = .ok (.un (.elemT n m) f) ∧ (Expr.un (.elemT n m) f).dim = n ∧
    Computes (.un (.elemT n m) f) env fun k => if k = m then f.val env 0 else 0 := by
  have ha : (Un.elemT n m).accept f.dim = true := by simp [Un.accept, hd]
  refine ⟨by simp [mkUn, ha], rfl, ((hf.un ha (show 0 < n by omega) (fun n h => by cases h)
    ⟨by omega, by omega⟩).computes).congr fun k hk => ?_⟩
  have hk' : k < n := hk
  simp only [Expr.val, unVal]
  rw [cst_eq hk']
  simp

/-- **C37**, `Extract`: rejected exactly when the entries are not all inside the vector. -/
theorem C37_extract (s n : Nat) (hn : 0 < n) : (f.dim < s + n → mkUn (.extract s n) f = .error .keops) ∧
    (s + n ≤ f.dim → mkUn (.extract s n) f = .ok (.un (.extract s n) f) ∧ (Expr.un (.extract s n) f).dim = n ∧
      Computes (.un (.extract s n) f) env fun k => f.val env (s + k)) := by
  refine ⟨fun h => by simp [mkUn, Un.accept, h], fun h => ?_⟩
  have ha : (Un.extract s n).accept f.dim = true := by simp [Un.accept, h]
  refine ⟨by simp [mkUn, ha], rfl, ((hf.un ha hn (fun n h => by cases h) trivial).computes).congr fun k hk => ?_⟩
  have hk' : k < n := hk
  simp only [Expr.val, unVal]
  rw [cst_eq hk']

/-- **C37**, `ExtractT`: rejected exactly when the argument does not fit. -/
theorem C37_extractT (s n : Nat) : (n < s + f.dim → mkUn (.extractT s n) f = .error .keops) ∧
    (s + f.dim ≤ n → mkUn (.extractT s n) f = .ok (.un (.extractT s n) f) ∧ (Expr.un (.extractT s n) f).dim = n ∧
      Computes (.un (.extractT s n) f) env fun k => if s ≤ k ∧ k < s + f.dim then f.val env (k - s) else 0) := by
  refine ⟨fun h => by simp [mkUn, Un.accept, h], fun h => ?_⟩
  have ha : (Un.extractT s n).accept f.dim = true := by simp [Un.accept, h]
  have := hf.wf.pos
  refine ⟨by simp [mkUn, ha], rfl, ((hf.un ha (show 0 < n by omega) (fun n h => by cases h) trivial).computes).congr
    fun k hk => ?_⟩
  have hk' : k < n := hk
  simp only [Expr.val, unVal]
  rw [cst_eq hk']

/-- **C37**, `OneHot`, partial: when the argument, rounded, is a position of the vector. -/
theorem C37_oneHot_partial (n p : Nat) (hd : f.dim = 1) (hp : p < n)
    (hx : f.val env 0 = p) : mkUn (.oneHot n) f = .ok (.un (.oneHot n) f) ∧ (Expr.un (.oneHot n) f).dim = n ∧
    Computes (.un (.oneHot n) f) env fun k => if k = p then 1 else 0 := by
  have ha : (Un.oneHot n).accept f.dim = true := by simp [Un.accept, hd]; omega
  have ht : trunc (f.val env 0 + 1 / 2) = p := by
    rw [hx]
    unfold trunc
    rw [if_pos (by positivity), Int.floor_eq_iff]
    constructor
    · push_cast; linarith
    · push_cast; linarith
  refine ⟨by simp [mkUn, ha], rfl, ((hf.un ha (show 0 < n by omega) (fun n h => by cases h)
    (show 0 ≤ trunc _ ∧ trunc _ < (n : Int) by rw [ht]; omega)).computes).congr fun k hk => ?_⟩
  have hk' : k < n := hk
  simp only [Expr.val, unVal]
  rw [cst_eq hk', ht]
  simp [Spec.ind]

end Layout

/-- **C37**: `ElemT` is the adjoint of `Elem`, `(Elem(f, m) | g) = (f | ElemT(g, n, m))`. -/
theorem C37_elem_adjoint {f g : Expr} (env : Env) (hg : g.WF) (hd : g.dim = 1) {m : Nat} (hm : m < f.dim) :
    (Expr.bin .scalprod (.un (.elem m) f) g).val env 0 =
      (Expr.bin .scalprod f (.un (.elemT f.dim m) g)).val env 0 := by
  simp only [Expr.val, binVal, unVal, Expr.dim, Un.dim, hd, max_self]
  rw [Finset.sum_eq_single_of_mem m (Finset.mem_range.mpr hm)]
  · rw [cst_eq hm]; simp
  · intro k hk hkm
    rw [cst_eq (Finset.mem_range.mp hk), if_neg (by omega), mul_zero]

/-- **C37**: `ExtractT` is the adjoint of `Extract`. -/
theorem C37_extract_adjoint {f g : Expr} (env : Env) {s : Nat} (hs : s + g.dim ≤ f.dim) :
    (Expr.bin .scalprod (.un (.extract s g.dim) f) g).val env 0 =
      (Expr.bin .scalprod f (.un (.extractT s f.dim) g)).val env 0 := by
  simp only [Expr.val, binVal, unVal, Expr.dim, Un.dim, max_self]
  have h1 : ∀ k ∈ range f.dim, f.val env k * cst f.dim (fun k => if s ≤ k ∧ k < s + g.dim then g.val env (k - s) else 0) k =
      if k ∈ Finset.Ico s (s + g.dim) then f.val env k * g.val env (k - s) else 0 := by
    intro k hk
    rw [cst_eq (Finset.mem_range.mp hk)]
    simp only [Finset.mem_Ico, mul_ite, mul_zero]
  rw [Finset.sum_congr rfl h1, ← Finset.sum_filter]
  have h2 : (range f.dim).filter (· ∈ Finset.Ico s (s + g.dim)) = Finset.Ico s (s + g.dim) := by
    ext k
    simp only [Finset.mem_filter, Finset.mem_range, Finset.mem_Ico]
    omega
  rw [h2, Finset.sum_Ico_eq_sum_range, Nat.add_sub_cancel_left]
  refine Finset.sum_congr rfl fun k hk => ?_
  rw [cst_eq (Finset.mem_range.mp hk), Nat.add_sub_cancel_left]

/-- The hypotheses are met by a vector of dimension 5 from which 2 entries are taken. -/
example (env : Env) : Computes (.un (.extract 3 2) (.var 0 5 0)) env (fun k => (Expr.var 0 5 0).val env (3 + k)) ∧
    Computes (.un (.elem 4) (.var 0 5 0)) env (fun _ => (Expr.var 0 5 0).val env 4) ∧
    mkUn (.extract 4 2) (.var 0 5 0) = .error .keops :=
  ⟨((C37_extract (f := .var 0 5 0) (env := env) ⟨by simp [Expr.WF], trivial, trivial⟩ 3 2 (by omega)).2
    (by simp [Expr.dim])).2.2,
  ((C37_elem (f := .var 0 5 0) (env := env) ⟨by simp [Expr.WF], trivial, trivial⟩ 4).2 (by omega)
    (by simp [Expr.dim])).2.2,
  (C37_extract (f := .var 0 5 0) (env := env) ⟨by simp [Expr.WF], trivial, trivial⟩ 4 2 (by omega)).1
    (by simp [Expr.dim])⟩

private theorem error_bind {α β : Type} {x : CErr} {f : α → Except CErr β} :
    (Except.error x >>= f) = .error x := rfl

private theorem error_map {α β : Type} {x : CErr} {f : α → β} :
    (f <$> (Except.error x : Except CErr α)) = .error x := rfl

/-- **C37 fails**: out-of-range positions are not all rejected.  `Elem(x, -1)` is accepted, and its code reads
before the array; `ElemT(x, 2, 3)` is accepted, and its code writes after the array; the code of `OneHot(x, 2)`
writes after the array when `x = 7`. -/
theorem not_C37 (M : CMath) (hM : M.Exact) (junk : Expr → Nat → ℝ) (out : CArr) (h : out.length = 2) :
    (mkUn (.elem (-1)) (.var 0 2 0) = .ok (.un (.elem (-1)) (.var 0 2 0)) ∧
      ∀ tab : Table, tab.look 0 = .ok [1, 2] →
        (Expr.un (.elem (-1)) (.var 0 2 0)).code M junk [0] tab = .error .bounds) ∧
    (mkUn (.elemT 2 3) (.var 0 1 0) = .ok (.un (.elemT 2 3) (.var 0 1 0)) ∧
      (Expr.un (.elemT 2 3) (.var 0 1 0)).code M junk out [some [1]] = .error .bounds) ∧
    (mkUn (.oneHot 2) (.var 0 1 0) = .ok (.un (.oneHot 2) (.var 0 1 0)) ∧
      (Expr.un (.oneHot 2) (.var 0 1 0)).code M junk out [some [7]] = .error .bounds) := by
  match out, h with
  | [a, b], _ =>
    have e7 : M.toInt (7 + 2⁻¹) = 7 := by
      rw [hM.toInt, trunc, if_pos (by norm_num), Int.floor_eq_iff]
      constructor <;> norm_num
    refine ⟨⟨by decide, fun tab ht => ?_⟩, ⟨by decide, ?_⟩, by decide, ?_⟩
    · rw [Expr.code, evalArg, ht]
      simp [Un.op, CArr.get, ok_bind, error_bind]
    · rw [Expr.code, evalArg]
      simp [Table.look, Un.op, CArr.get, CArr.put, loop, ok_bind, error_bind]
    · rw [Expr.code, evalArg]
      simp [Table.look, Un.op, CArr.get, CArr.put, CArr.fill, loop, ok_bind, error_map, e7]

end Verif
