import Verif.Proofs.FormulaCode
import Verif.Proofs.Calculus
import Verif.Spec.Precision

/-!
# Computations in double precision: helper lemmas
-/

namespace Verif.Prec

open Spec

/-- The operations of type `double` of a machine, as the functions used by `Model/FormulaCode.lean`. -/
noncomputable def cm (m : Machine) : CMath where
  exp := m.fun1 .double .exp
  log := m.fun1 .double .log
  cos := m.fun1 .double .cos
  sin := m.fun1 .double .sin
  acos := m.fun1 .double .acos
  asin := m.fun1 .double .asin
  atan := m.fun1 .double .atan
  sqrt := m.fun1 .double .sqrt
  abs := m.fun1 .double .abs
  floor := m.fun1 .double .floor
  round := m.fun1 .double .round
  pow x n := m.fun2 .double .pow x n
  powf x y := x ^ y
  atan2 := m.fun2 .double .atan2
  div := m.arith .double .div
  toInt x := trunc x

theorem cm_exact {m : Machine} (hm : ExactDouble m) : (cm m).Exact where
  exp := hm.exp
  log := hm.log
  cos := hm.cos
  sin := hm.sin
  acos := hm.acos
  asin := hm.asin
  atan := hm.atan
  sqrt := hm.sqrt
  abs := hm.abs
  floor := hm.floor
  round := hm.round
  pow := hm.pow
  powf _ _ _ := rfl
  atan2 := hm.atan2
  div := hm.div
  toInt _ := rfl

theorem fold_congr {σ : Type} {n : Nat} {f g : σ → Nat → σ} (h : ∀ k < n, ∀ z, f z k = g z k) (a : σ) :
    (List.range n).foldl f a = (List.range n).foldl g a := by
  induction n with
  | zero => rfl
  | succ n ih =>
    rw [List.range_succ, List.foldl_append, List.foldl_append, ih fun k hk => h k (by omega)]
    exact h n (by omega) _

theorem iter_congr {n : Nat} {f g : Nat → ℝ → ℝ} (h : ∀ k < n, ∀ z, f k z = g k z) (a : ℝ) :
    iter n f a = iter n g a := fold_congr h a

theorem iter_sum {n : Nat} (f : Nat → ℝ) : iter n (fun k z => z + f k) 0 = ∑ k ∈ Finset.range n, f k := by
  unfold iter
  induction n with
  | zero => rfl
  | succ n ih => rw [List.range_succ, List.foldl_append, ih, Finset.sum_range_succ]; rfl

theorem extremum_congr {c : Cmp} {d : Nat} {x y : Nat → ℝ} (hd : 0 < d) (h : ∀ k < d, x k = y k) :
    extremum c d x = extremum c d y := by
  unfold extremum
  rw [h 0 hd]
  exact iter_congr (fun k hk z => by rw [h (k + 1) (by omega)]) _

theorem argExtremum_congr {m : Machine} {dt : Fl} {c : Cmp} {d : Nat} {x y : Nat → ℝ} (hd : 0 < d)
    (h : ∀ k < d, x k = y k) : argExtremum m dt c d x = argExtremum m dt c d y := by
  unfold argExtremum
  rw [h 0 hd]
  exact congrArg _ (fold_congr (fun k hk z => by rw [h (k + 1) (by omega)]) _)

open Classical in
theorem argExtremum_gt {m : Machine} (hm : ∀ n : ℕ, m.conv .double n = n) {d : Nat} (hd : 0 < d) (x : Nat → ℝ) :
    argExtremum m .double .gt d x = argMax d x := by
  rw [← runMax_eq hd]
  unfold argExtremum
  have : ∀ n, (List.range n).foldl (fun (s : ℝ × ℝ) k =>
      if Cmp.holds .gt (x (k + 1)) s.1 then (x (k + 1), m.to .int (.fl .double) (k + 1 : Nat)) else s) (x 0, 0) =
      (x (runMax x n), (runMax x n : ℝ)) := by
    intro n
    induction n with
    | zero => simp [runMax]
    | succ n ih =>
      rw [List.range_succ, List.foldl_append, ih]
      simp only [List.foldl_cons, List.foldl_nil, Cmp.holds, runMax, Machine.to, hm]
      split_ifs <;> rfl
  simp only [this]

open Classical in
theorem argExtremum_lt {m : Machine} (hm : ∀ n : ℕ, m.conv .double n = n) {d : Nat} (hd : 0 < d) (x : Nat → ℝ) :
    argExtremum m .double .lt d x = argMin d x := by
  rw [argMin_neg, ← argExtremum_gt hm hd]
  unfold argExtremum
  have : ∀ n, (List.range n).foldl (fun (s : ℝ × ℝ) k =>
      if Cmp.holds .gt (-x (k + 1)) s.1 then (-x (k + 1), m.to .int (.fl .double) (k + 1 : Nat)) else s) (-x 0, 0) =
      Prod.map (- ·) id ((List.range n).foldl (fun (s : ℝ × ℝ) k =>
      if Cmp.holds .lt (x (k + 1)) s.1 then (x (k + 1), m.to .int (.fl .double) (k + 1 : Nat)) else s) (x 0, 0)) := by
    intro n
    induction n with
    | zero => simp
    | succ n ih =>
      rw [List.range_succ, List.foldl_append, List.foldl_append, ih]
      generalize List.foldl _ (x 0, (0 : ℝ)) (List.range n) = s
      simp only [List.foldl_cons, List.foldl_nil, Cmp.holds, Prod.map_fst, gt_iff_lt, neg_lt_neg_iff]
      by_cases h1 : x (n + 1) < s.1
      · simp only [if_pos h1]
        exact (congrArg (Prod.map (fun x => -x) id) (if_pos (t := (x (n + 1), m.to Ty.int (Ty.fl Fl.double) ((n + 1 : ℕ) : ℝ))) h1)).symm
      · simp only [if_neg h1]
        exact (congrArg (Prod.map _ _) (if_neg h1)).symm
  rw [this]
  rfl

open Classical in
theorem extremum_gt {d : Nat} (hd : 0 < d) (x : Nat → ℝ) : extremum .gt d x = x (argMax d x) := by
  rw [← runMax_eq hd]
  unfold extremum iter
  have : ∀ n, (List.range n).foldl (fun acc k => if Cmp.holds .gt (x (k + 1)) acc then x (k + 1) else acc) (x 0) =
      x (runMax x n) := by
    intro n
    induction n with
    | zero => rfl
    | succ n ih =>
      rw [List.range_succ, List.foldl_append, ih]
      simp only [List.foldl_cons, List.foldl_nil, Cmp.holds, runMax]
      split_ifs with h1 <;> simp [h1]
  exact this _

open Classical in
theorem extremum_lt {d : Nat} (hd : 0 < d) (x : Nat → ℝ) : extremum .lt d x = x (argMin d x) := by
  have h := extremum_gt hd (fun k => -x k)
  rw [argMin_neg, ← neg_inj, ← h]
  unfold extremum iter
  generalize d - 1 = n
  induction n with
  | zero => rfl
  | succ n ih =>
    rw [List.range_succ, List.foldl_append, List.foldl_append, ← ih]
    simp only [List.foldl_cons, List.foldl_nil, Cmp.holds, gt_iff_lt, neg_lt_neg_iff]
    split_ifs with h1 <;> simp [h1]

theorem bc_lt {n k : Nat} {f : Nat → ℝ} (hk : k < n) : bc n f k = f k := by
  unfold bc
  split_ifs with h
  · congr 1; omega
  · rfl

section
variable {m : Machine} (hm : ExactDouble m) (t : Target)
include hm

theorem tenPow_eval (d : Int) (args : Nat → ℝ) :
    m.to ((tenPow d).ty .double) (.fl .double) ((tenPow d).eval m .double args) = (10 : ℝ) ^ d := by
  unfold tenPow
  split_ifs with h
  · simp only [CExp.ty, CExp.eval, Machine.to, hm.conv]
    obtain ⟨n, rfl⟩ := Int.eq_ofNat_of_zero_le h
    simp
  · simp only [CExp.ty, CExp.eval, Machine.to, hm.conv]
    push_cast
    rfl

omit hm in
theorem tenPow_join (d : Int) : (Ty.fl .double).join ((tenPow d).ty .double) = .fl .double := rfl

theorem roundExp_eq (n : Int) (y : ℝ) :
    (CExp.assign m .double (argv [y]) (if n = 0 then .call1 .round (.arg 0) else
      .bin .div (.call1 .round (.bin .mul (.arg 0) (tenPow n))) (tenPow n))) =
    if n = 0 then m.fun1 .double .round y else
      m.arith .double .div (m.fun1 .double .round (y * 10 ^ n)) (10 ^ n) := by
  split_ifs with h
  · simp [CExp.assign, CExp.eval, CExp.ty, Machine.to, Ty.over, argv]
  · have e := tenPow_eval hm n (argv [y])
    simp only [CExp.assign, CExp.eval, CExp.ty, tenPow_join, e, Ty.over, hm.mul]
    simp [Machine.to, argv]

theorem unExp_eq {o : Un} (ho : o.vectorized = true) (hp : t = .gpu → ∀ n, o ≠ .pow n) {d : Nat} {x : Vec}
    (hd : unDef o d x) {k : Nat} (hk : k < d) :
    (unExp t .double o).assign m .double (argv [x k]) = unVal o d x k := by
  by_cases hr : t = .gpu ∧ o = .rsqrt
  · obtain ⟨rfl, rfl⟩ := hr
    have h := hd k hk
    have e : (unExp .gpu .double .rsqrt).assign m .double (argv [x k]) =
        if x k = 0 then 0 else m.fun1 .double .rsqrt (x k) := by
      simp [unExp, mathFunction, CExp.assign, CExp.eval, CExp.ty, Machine.to, Ty.join, Ty.over, argv, Cmp.holds]
    rw [e]
    simp only [unVal]
    split_ifs with h0
    · rfl
    · exact hm.rsqrt _ (lt_of_le_of_ne h (Ne.symm h0))
  · rw [← Un.scalar_eq (cm_exact hm) ho hd hk]
    cases t <;> cases o <;> first
      | (cases ho; done)
      | (exact absurd ⟨rfl, rfl⟩ hr)
      | (exact absurd rfl (hp rfl _))
      | skip
    all_goals simp [unExp, mathFunction, CExp.assign, CExp.eval, CExp.ty, Machine.to, Ty.join, Ty.over, Fl.join, argv,
      Cmp.holds, Un.scalar, cm, hm.conv, hm.mul]
    all_goals exact roundExp_eq hm _ _

theorem binExp_eq {o : Bin} (ho : o.vectorized = true) (hp : o ≠ .powf) {d d' : Nat} {x y : Vec}
    (hd : binDef o d d' x y) {k : Nat} (hk : k < max d d') :
    (binExp t .double o).assign m .double (argv [x k, y k]) = binVal o d d' x y k := by
  rw [← Bin.scalar_eq (cm_exact hm) ho hd hk]
  cases t <;> cases o <;> first
    | (cases ho; done)
    | (exact absurd rfl hp)
    | skip
  all_goals simp [binExp, mathFunction, CExp.assign, CExp.eval, CExp.ty, Machine.to, Ty.join, Ty.over, Fl.join, argv,
    Cmp.holds, Bin.scalar, cm, hm.mul, hm.add, hm.sub]

theorem ternExp_eq {o : Tern} {d : Nat} {x y w : Vec} (hd : ternDef o d x y w) {k : Nat} (hk : k < d) :
    (ternExp t .double o).assign m .double (argv [x k, y k, w k]) = ternVal o x y w k := by
  rw [← Tern.scalar_eq (cm_exact hm) hd hk]
  cases t <;> cases o <;>
  simp [ternExp, mathFunction, CExp.assign, CExp.eval, CExp.ty, Machine.to, Ty.join, Ty.over, argv,
    Cmp.holds, Tern.scalar, cm, hm.mul, hm.sub]

omit hm in
theorem unOp_vectorized {dt : Fl} {o : Un} (ho : o.vectorized = true) (d : Nat) (x : Nat → ℝ) :
    unOp m t dt o d x = fun k => (unExp t dt o).assign m dt (argv [bc d x k]) := by
  cases o <;> first | rfl | cases ho

theorem unOp_eq {o : Un} (hp : t = .gpu → ∀ n, o ≠ .pow n) {d : Nat} {x x' : Vec} (hd : 0 < d)
    (ha : o.accept d = true) (hdef : unDef o d x) (hx : ∀ k < d, x' k = x k) {k : Nat} (hk : k < o.dim d) :
    unOp m t .double o d x' k = unVal o d x k := by
  by_cases ho : o.vectorized = true
  · have hk' : k < d := by
      have : o.dim d = d := by cases o <;> first | rfl | cases ho
      omega
    rw [unOp_vectorized t ho]
    simp only [bc_lt hk', hx k hk']
    exact unExp_eq hm t ho hp hdef hk'
  · cases o with
    | sum =>
      simp only [unOp, hm.add, unVal]
      rw [iter_congr (g := fun k z => z + x k) (fun k hk z => by rw [hx k hk]), iter_sum]
    | sumT n => exact hx 0 hd
    | elem i =>
      have h0 : 0 ≤ i := hdef
      have h1 : ¬ (d : Int) ≤ i := by simpa [Un.accept] using ha
      exact hx _ (by omega)
    | elemT n i =>
      simp only [unOp, unVal, bc_lt (show k < n from hk), cst_lt (show k < n from hk), hx 0 hd]
    | extract s n =>
      have h1 : ¬ d < s + n := by simpa [Un.accept] using ha
      have hk : k < n := hk
      simp only [unOp, unVal, bc_lt hk, cst_lt hk]
      exact hx _ (by omega)
    | extractT s n =>
      simp only [unOp, unVal, bc_lt (show k < n from hk), cst_lt (show k < n from hk)]
      split_ifs with h
      · exact hx _ (by omega)
      · rfl
    | oneHot n =>
      simp only [unOp, unVal, bc_lt (show k < n from hk), cst_lt (show k < n from hk), hx 0 hd, hm.add]
      rfl
    | max =>
      have h : unOp m t .double .max d x' k = extremum .gt d x' := rfl
      rw [h, extremum_congr hd hx, extremum_gt hd]; rfl
    | min =>
      have h : unOp m t .double .min d x' k = extremum .lt d x' := rfl
      rw [h, extremum_congr hd hx, extremum_lt hd]; rfl
    | argMax =>
      have h : unOp m t .double .argMax d x' k = argExtremum m .double .gt d x' := rfl
      rw [h, argExtremum_congr hd hx, argExtremum_gt (fun n => hm.conv _) hd]; rfl
    | argMin =>
      have h : unOp m t .double .argMin d x' k = argExtremum m .double .lt d x' := rfl
      rw [h, argExtremum_congr hd hx, argExtremum_lt (fun n => hm.conv _) hd]; rfl
    | _ => exact absurd rfl ho

omit hm in
theorem binOp_vectorized {dt : Fl} {o : Bin} (ho : o.vectorized = true) (d d' : Nat) (x y : Nat → ℝ) :
    binOp m t dt o d d' x y = fun k => (binExp t dt o).assign m dt (argv [bc d x k, bc d' y k]) := by
  cases o <;> first | rfl | cases ho

omit hm in
theorem bc_val {d n : Nat} {x x' : Vec} (hx : ∀ k < d, x' k = x k) (hc : d = 1 → ∀ k, x k = x 0) (hd : 0 < d)
    {k : Nat} (h : d = n ∨ d = 1) (hk : k < n) : bc d x' k = x k := by
  unfold bc
  split_ifs with h1
  · rw [hx 0 hd]; exact (hc h1 k).symm
  · exact hx k (by omega)

theorem binOp_eq {o : Bin} (hp : o ≠ .powf) {d d' : Nat} {x x' y y' : Vec} (hd : 0 < d) (hd' : 0 < d')
    (ha : o.accept d d' = true) (hdef : binDef o d d' x y) (hx : ∀ k < d, x' k = x k) (hy : ∀ k < d', y' k = y k)
    (hcx : d = 1 → ∀ k, x k = x 0) (hcy : d' = 1 → ∀ k, y k = y 0) {k : Nat} (hk : k < o.dim d d') :
    binOp m t .double o d d' x' y' k = binVal o d d' x y k := by
  by_cases ho : o.vectorized = true
  · have hk' : k < max d d' := by
      have : o.dim d d' = max d d' := by cases o <;> first | rfl | cases ho
      omega
    have hdim : d = d' ∨ d = 1 ∨ d' = 1 := by
      refine (dimsOk_pair hd hd').mp ?_
      cases o <;> first | exact ha | cases ho
    rw [binOp_vectorized t ho]
    simp only
    rw [bc_val hx hcx hd (n := max d d') (by omega) hk', bc_val hy hcy hd' (n := max d d') (by omega) hk']
    exact binExp_eq hm t ho hp hdef hk'
  · cases o with
    | scalprod =>
      have h1 : d = d' := by simpa [Bin.accept] using ha
      subst h1
      simp only [binOp, hm.fma, binVal, max_self]
      rw [iter_congr (g := fun k z => z + x k * y k) (fun k hk z => by
        rw [bc_lt hk, bc_lt hk, hx k hk, hy k hk, add_comm]), iter_sum]
    | concat =>
      have hk : k < d + d' := hk
      simp only [binOp, binVal, bc_lt hk, cst_lt hk]
      split_ifs with h
      · exact hx _ h
      · exact hy _ (by omega)
    | matVecMult =>
      have hk : k < d / d' := hk
      have h1 : d' ∣ d := Nat.dvd_of_mod_eq_zero (by simpa [Bin.accept] using ha)
      simp only [binOp, binVal, bc_lt hk, cst_lt hk, hm.add, hm.mul]
      rw [iter_congr (g := fun l z => z + x (k * d' + l) * y l) (fun l hl z => by
        rw [hy l hl, hx]
        calc k * d' + l < (k + 1) * d' := by rw [Nat.add_mul]; omega
          _ ≤ d / d' * d' := Nat.mul_le_mul_right _ hk
          _ ≤ d := Nat.div_mul_le_self _ _), iter_sum]
    | vecMatMult =>
      have hk : k < d' / d := hk
      simp only [binOp, binVal, bc_lt hk, cst_lt hk, hm.add, hm.mul]
      rw [iter_congr (g := fun l z => z + x l * y (l * (d' / d) + k)) (fun l hl z => by
        rw [hx l hl, hy, mul_comm]
        calc l * (d' / d) + k < (l + 1) * (d' / d) := by rw [Nat.add_mul]; omega
          _ ≤ d * (d' / d) := Nat.mul_le_mul_right _ hl
          _ ≤ d' := Nat.mul_div_le _ _), iter_sum]
    | tensorProd =>
      have hk : k < d * d' := hk
      simp only [binOp, binVal, bc_lt hk, cst_lt hk, hm.mul]
      rw [hx _ (Nat.div_lt_of_lt_mul (by rwa [mul_comm] at hk)), hy _ (Nat.mod_lt _ hd')]
    | _ => exact absurd rfl ho

omit hm in
theorem single_cast {x : ℝ} (hf : FloatConv m) (hx : Single x) (e : CExp) (he : e.ty .double = .int ∨ e.ty .double = .fl .double)
    (h : e.eval m .double (argv []) = x) : (CExp.toFloat e).assign m .double (argv []) = x := by
  simp only [CExp.assign, CExp.ty, CExp.eval, h]
  rcases he with he | he <;> rw [he] <;> simp [Machine.to, hf.keep x hx]

theorem run_eq (hf : FloatConv m) (e : Expr) : ∀ {env env' : Env}, Ok t e → e.WF → e.Named → e.Def env →
    (∀ v ∈ e.free, ∀ k < v.2.1, env' v.1 k = env v.1 k) → ∀ k < e.dim, run m t .double env' e k = e.val env k := by
  induction e with
  | var i d c =>
    intro env env' _ hw _ _ hv k hk
    have hk : k < d := hk
    simp only [run, Expr.val, bc_lt hk, cst_lt hk]
    exact hv (i, d, c) (by simp [Expr.free]) k hk
  | zero d => intro env env' _ _ _ _ _ k _; rfl
  | int n =>
    intro env env' ho _ _ _ _ k _
    exact single_cast hf ho _ (Or.inl rfl) rfl
  | rat p q =>
    intro env env' ho _ _ _ _ k _
    refine single_cast hf ho _ (Or.inr rfl) ?_
    simp [CExp.eval, hm.conv]
  | un o f ih =>
    intro env env' ho hw hn hd hv k hk
    exact unOp_eq hm t ho.2 hw.1.pos hw.2.1 hd.2 (ih ho.1 hw.1 hn hd.1 hv) hk
  | bin o f g ihf ihg =>
    intro env env' ho hw hn hd hv k hk
    refine binOp_eq hm t ho.2.2 hw.1.pos hw.2.1.pos hw.2.2.1 hd.2.2
      (ihf ho.1 hw.1 hn.1 hd.1 fun v h => hv v (List.mem_append_left _ h))
      (ihg ho.2.1 hw.2.1 hn.2 hd.2.1 fun v h => hv v (List.mem_append_right _ h)) ?_ ?_ hk
    · intro h k; exact f.val_const hw.1 h env k 0
    · intro h k; exact g.val_const hw.2.1 h env k 0
  | tern o f g h ihf ihg ihh =>
    intro env env' ho hw hn hd hv k hk
    have h1 := ihf ho.1 hw.1 hn.1 hd.1 fun v hm => hv v (List.mem_append_left _ hm)
    have h2 := ihg ho.2.1 hw.2.1 hn.2.1 hd.2.1 fun v hm => hv v
      (List.mem_append_right _ (List.mem_append_left _ hm))
    have h3 := ihh ho.2.2 hw.2.2.1 hn.2.2 hd.2.2.1 fun v hm => hv v
      (List.mem_append_right _ (List.mem_append_right _ hm))
    have hdim := (dimsOk_triple hw.1.pos hw.2.1.pos hw.2.2.1.pos).mp hw.2.2.2
    have hk : k < max (max f.dim g.dim) h.dim := hk
    simp only [run, Expr.val]
    rw [bc_val h1 (fun e k => f.val_const hw.1 e env k 0) hw.1.pos hdim.1.symm hk,
      bc_val h2 (fun e k => g.val_const hw.2.1 e env k 0) hw.2.1.pos hdim.2.1.symm hk,
      bc_val h3 (fun e k => h.val_const hw.2.2.1 e env k 0) hw.2.2.1.pos hdim.2.2.symm hk]
    exact ternExp_eq hm t hd.2.2.2 hk
  | fact i d c f g ihf ihg =>
    intro env env' ho hw hn hd hv k hk
    have h2 := ihg ho.2 hw.2.1 hn.2.1 hd.1 fun v h => hv v (List.mem_append_right _ h)
    simp only [run, Expr.val]
    refine ihf ho.1 hw.1 hn.1 hd.2 (fun v hv' k hk => ?_) k hk
    by_cases e : v.1 = i
    · have := hn.2.2.2.2 v hv' e
      rw [e, Function.update_self, Function.update_self]
      refine h2 k ?_
      rw [this] at hk
      rw [hw.2.2]; exact hk
    · rw [Function.update_of_ne e, Function.update_of_ne e]
      exact hv v (List.mem_append_left _ (by simpa [List.mem_filter] using ⟨hv', e⟩)) k hk

end

/-! ## Machines with the same operations of type `double` -/

section
variable {m m' : Machine} (hs : SameDouble m m') (t : Target)
include hs

theorem tenPow_same (d : Int) (args : Nat → ℝ) :
    m.to ((tenPow d).ty .double) (.fl .double) ((tenPow d).eval m .double args) =
      m'.to ((tenPow d).ty .double) (.fl .double) ((tenPow d).eval m' .double args) := by
  unfold tenPow
  split_ifs with h <;> simp only [CExp.ty, CExp.eval, Machine.to, hs.conv]

theorem unExp_same {o : Un} (hp : t = .gpu → ∀ n, o ≠ .pow n) (args : Nat → ℝ) :
    (unExp t .double o).assign m .double args = (unExp t .double o).assign m' .double args := by
  cases o with
  | round n =>
    have e : unExp t .double (.round n) = (if n = 0 then .call1 .round (.arg 0) else
      .bin .div (.call1 .round (.bin .mul (.arg 0) (tenPow n))) (tenPow n)) := by cases t <;> rfl
    rw [e]
    split_ifs with h
    · simp [CExp.assign, CExp.eval, CExp.ty, Machine.to, Ty.over, hs.fun1]
    · have e := tenPow_same hs n args
      simp only [CExp.assign, CExp.eval, CExp.ty, tenPow_join, e, Ty.over, hs.arith, hs.fun1]
      simp [Machine.to]
  | _ =>
    cases t <;> first
      | (exact absurd rfl (hp rfl _))
      | simp [unExp, mathFunction, CExp.assign, CExp.eval, CExp.ty, Machine.to, Ty.join, Ty.over, Fl.join, Cmp.holds,
          hs.conv, hs.arith, hs.fun1, hs.fun2]

theorem binExp_same {o : Bin} (hp : o ≠ .powf) (args : Nat → ℝ) :
    (binExp t .double o).assign m .double args = (binExp t .double o).assign m' .double args := by
  cases t <;> cases o <;> first
    | (exact absurd rfl hp)
    | simp [binExp, mathFunction, CExp.assign, CExp.eval, CExp.ty, Machine.to, Ty.join, Ty.over, Fl.join, Cmp.holds,
        hs.arith, hs.fun2]

theorem ternExp_same {o : Tern} (args : Nat → ℝ) :
    (ternExp t .double o).assign m .double args = (ternExp t .double o).assign m' .double args := by
  cases t <;> cases o <;>
    simp [ternExp, mathFunction, CExp.assign, CExp.eval, CExp.ty, Machine.to, Ty.join, Ty.over, Cmp.holds,
      hs.arith, hs.fun1]

theorem unOp_same {o : Un} (hp : t = .gpu → ∀ n, o ≠ .pow n) (d : Nat) (x : Nat → ℝ) :
    unOp m t .double o d x = unOp m' t .double o d x := by
  by_cases ho : o.vectorized = true
  · rw [unOp_vectorized t ho, unOp_vectorized t ho]
    funext k
    exact unExp_same hs t hp _
  · cases o <;> first
      | (exact absurd rfl ho)
      | simp only [unOp, hs.arith, argExtremum, Machine.to, hs.conv]

theorem binOp_same {o : Bin} (hp : o ≠ .powf) (d d' : Nat) (x y : Nat → ℝ) :
    binOp m t .double o d d' x y = binOp m' t .double o d d' x y := by
  by_cases ho : o.vectorized = true
  · rw [binOp_vectorized t ho, binOp_vectorized t ho]
    funext k
    exact binExp_same hs t hp _
  · cases o <;> first
      | (exact absurd rfl ho)
      | simp only [binOp, hs.arith, hs.fma]

theorem run_same (hf : FloatConv m) (hf' : FloatConv m') (hd : ∀ x, Single x → m.conv .double x = x) (e : Expr) :
    ∀ {env : Env}, Ok t e → run m t .double env e = run m' t .double env e := by
  induction e with
  | var i d c => intro env _; rfl
  | zero d => intro env _; rfl
  | int n =>
    intro env ho
    funext k
    exact (single_cast hf ho _ (Or.inl rfl) rfl).trans (single_cast hf' ho _ (Or.inl rfl) rfl).symm
  | rat p q =>
    intro env ho
    have ho' : Single ((p / q : ℚ) : ℝ) := by push_cast; exact ho
    funext k
    exact (single_cast hf ho' (.dbl (p / q)) (Or.inr rfl) (hd _ ho')).trans
      (single_cast hf' ho' (.dbl (p / q)) (Or.inr rfl) (by simp only [CExp.eval, ← hs.conv]; exact hd _ ho')).symm
  | un o f ih =>
    intro env ho
    simp only [run]
    rw [ih ho.1, unOp_same hs t ho.2]
  | bin o f g ihf ihg =>
    intro env ho
    simp only [run]
    rw [ihf ho.1, ihg ho.2.1, binOp_same hs t ho.2.2]
  | tern o f g h ihf ihg ihh =>
    intro env ho
    simp only [run]
    rw [ihf ho.1, ihg ho.2.1, ihh ho.2.2]
    funext k
    exact ternExp_same hs t _
  | fact i d c f g ihf ihg =>
    intro env ho
    simp only [run]
    rw [ihg ho.2, ihf ho.1]

end

/-! ## Numbers of type `float` -/

theorem not_single_odd {n : ℤ} (h : 2 ^ 24 < n) (ho : n % 2 = 1) : ¬ Single n := by
  rintro ⟨k, e, hk, -, -, h2⟩
  rcases Int.lt_or_le 0 e with he | he
  · obtain ⟨j, rfl⟩ : ∃ j : ℕ, e = (j : ℤ) + 1 := ⟨(e - 1).toNat, by omega⟩
    have h3 : n = k * 2 ^ j * 2 := by
      have : (n : ℝ) = ((k * 2 ^ j * 2 : ℤ) : ℝ) := by
        rw [h2, zpow_add₀ (by norm_num)]; push_cast; rw [zpow_natCast]; ring
      exact_mod_cast this
    omega
  · obtain ⟨j, rfl⟩ : ∃ j : ℕ, e = -(j : ℤ) := ⟨(-e).toNat, by omega⟩
    have h3 : n * 2 ^ j = k := by
      have : (n * 2 ^ j : ℝ) = (k : ℝ) := by
        rw [h2, zpow_neg, zpow_natCast]
        field_simp
      exact_mod_cast this
    have h4 : (1 : ℤ) ≤ 2 ^ j := one_le_pow₀ (by norm_num)
    have h5 : n ≤ k := by nlinarith
    have := le_abs_self k
    omega

theorem single_third {f : ℝ} (h : Single f) : 1 / (3 * 2 ^ 25) ≤ |f - 1 / 3| := by
  obtain ⟨k, e, hk, -, -, rfl⟩ := h
  rcases Int.lt_or_le e (-25) with he | he
  · -- the number is at most 2 ^ (-2)
    have h1 : (k : ℝ) * 2 ^ e ≤ 1 / 4 := by
      have hk' : (k : ℝ) ≤ 2 ^ 24 := by
        have := le_abs_self k
        have h : k ≤ 2 ^ 24 := by omega
        exact_mod_cast h
      have he' : (2 : ℝ) ^ e ≤ 2 ^ (-26 : ℤ) := zpow_le_zpow_right₀ (by norm_num) (by omega)
      have h0 : (0 : ℝ) < 2 ^ e := by positivity
      calc (k : ℝ) * 2 ^ e ≤ 2 ^ 24 * 2 ^ e := by nlinarith
        _ ≤ 2 ^ 24 * 2 ^ (-26 : ℤ) := by nlinarith
        _ = 1 / 4 := by norm_num
    rw [abs_sub_comm]
    refine le_trans ?_ (le_abs_self _)
    have : (1 : ℝ) / (3 * 2 ^ 25) ≤ 1 / 3 - 1 / 4 := by norm_num
    linarith
  · obtain ⟨j, rfl⟩ : ∃ j : ℕ, e = (j : ℤ) - 25 := ⟨(e + 25).toNat, by omega⟩
    have h1 : (k : ℝ) * 2 ^ ((j : ℤ) - 25) - 1 / 3 = ((3 * (k * 2 ^ j) - 2 ^ 25 : ℤ) : ℝ) / (3 * 2 ^ 25) := by
      rw [zpow_sub₀ (by norm_num)]
      push_cast
      rw [zpow_natCast, show ((2 : ℝ) ^ (25 : ℤ)) = 2 ^ 25 by norm_cast]
      field_simp
      norm_num
    rw [h1, abs_div, abs_of_pos (by norm_num : (0 : ℝ) < 3 * 2 ^ 25)]
    refine div_le_div_of_nonneg_right ?_ (by norm_num)
    have h2 : (1 : ℤ) ≤ |3 * (k * 2 ^ j) - 2 ^ 25| := by
      apply Int.one_le_abs
      omega
    exact_mod_cast h2

end Verif.Prec
