import Mathlib.Analysis.SpecialFunctions.Trigonometric.Deriv
import Mathlib.Analysis.SpecialFunctions.ExpDeriv
import Mathlib.Analysis.SpecialFunctions.Sqrt
import Mathlib.Tactic.Module
import Verif.Proofs.Complex
import Verif.Proofs.Calculus

/-!
# Gradients of complex operations: helper lemmas
-/

namespace Verif.Cplx

open Finset Spec

theorem mkUn_ok {o : Un} {f r : Form} (h : mkUn o f = .ok r) : r = .un o f ∧ o.accept f.dim = true := by
  unfold mkUn at h
  split_ifs at h with ha
  exact ⟨(Except.ok.inj h).symm, ha⟩

theorem mkBin_ok {o : Bin} {f g r : Form} (h : mkBin o f g = .ok r) :
    r = .bin o f g ∧ o.accept f.dim g.dim = true := by
  unfold mkBin at h
  split_ifs at h with ha
  exact ⟨(Except.ok.inj h).symm, ha⟩

theorem mkUn_eq {o : Un} {f : Form} (h : o.accept f.dim = true) : mkUn o f = .ok (.un o f) := if_pos h

theorem mkBin_eq {o : Bin} {f g : Form} (h : o.accept f.dim g.dim = true) : mkBin o f g = .ok (.bin o f g) := if_pos h

theorem bindOk {ε α β : Type} {x : Except ε α} {f : α → Except ε β} {b : β} (h : (x >>= f) = .ok b) :
    ∃ a, x = .ok a ∧ f a = .ok b := by
  cases x with
  | error e => exact absurd h (by intro h; cases h)
  | ok a => exact ⟨a, rfl, h⟩

theorem Form.WF.pos : ∀ {f : Form}, f.WF → 0 < f.dim
  | .var _ _ _, h => h
  | .zero _, h => h
  | .un o f, ⟨hf, ha, hn⟩ => by
    have hp := hf.pos
    show 0 < o.dim f.dim
    cases o
    case real | imag | sqAbs =>
      have : f.dim % 2 = 0 := eq_of_beq ha
      show 0 < f.dim / 2
      omega
    case sumT n => exact (hn n rfl).1
    case sum => show 0 < 2; omega
    case ofReal | ofImag | exp1j => show 0 < 2 * f.dim; omega
    all_goals exact hp
  | .bin o f g, ⟨hf, hg, _⟩ => by
    have h1 := hf.pos
    have h2 := hg.pos
    show 0 < o.dim f.dim g.dim
    cases o
    case realScal => exact h2
    all_goals exact lt_max_of_lt_left h1

theorem sum_pairs {A : Type} [AddCommMonoid A] (a : Nat → A) (m : Nat) :
    ∑ i ∈ range (2 * m), a i = ∑ k ∈ range m, (a (2 * k) + a (2 * k + 1)) := by
  induction m with
  | zero => rfl
  | succ m ih =>
    rw [show 2 * (m + 1) = 2 * m + 1 + 1 by omega, sum_range_succ, sum_range_succ, sum_range_succ, ih, add_assoc]

section

variable {E : Type} [NormedAddCommGroup E] [NormedSpace ℝ E]

/-- Combination of `n` linear forms. -/
def ip (n : Nat) (a : Vec) (b : Nat → (E →L[ℝ] ℝ)) : E →L[ℝ] ℝ := ∑ k ∈ range n, a k • b k

theorem ip_congr {n : Nat} {a a' : Vec} {b b' : Nat → (E →L[ℝ] ℝ)} (h : ∀ k < n, a k • b k = a' k • b' k) :
    ip n a b = ip n a' b' := sum_congr rfl fun k hk => h k (mem_range.mp hk)

theorem ip_pairs {m : Nat} {a : Vec} {b : Nat → (E →L[ℝ] ℝ)} :
    ip (2 * m) a b = ∑ k ∈ range m, (a (2 * k) • b (2 * k) + a (2 * k + 1) • b (2 * k + 1)) := sum_pairs _ m

variable (F : E → Env) (p : E) (δ : Nat → (E →L[ℝ] ℝ)) (v : VarId)

/-- `D` is the transpose of the differential of the formula `f` at the point `p`, whenever it returns. -/
structure Good (f : Form) (D : Diff) (f' : Nat → (E →L[ℝ] ℝ)) : Prop where
  wf : f.WF
  defined : f.Def (F p)
  deriv : ∀ k < f.dim, HasFDerivAt (fun q => f.val (F q) k) (f' k) p
  adj : ∀ {η r : Form}, η.WF → η.Def (F p) → η.dim = f.dim → D η = .ok r →
    r.WF ∧ r.Def (F p) ∧ r.dim = v.dim ∧ ip v.dim (r.val (F p)) δ = ip f.dim (η.val (F p)) f'

variable {F p δ v} {f g : Form} {Df Dg : Diff} {f' g' : Nat → (E →L[ℝ] ℝ)} {m : Nat}

/-- The same value, with the same method. -/
theorem Good.of_eq {h : Form} (hf : Good F p δ v f Df f') (hw : h.WF) (hd : h.Def (F p)) (hdim : h.dim = f.dim)
    (hval : ∀ q, ∀ k < f.dim, h.val (F q) k = f.val (F q) k) : Good F p δ v h Df f' where
  wf := hw
  defined := hd
  deriv := fun k hk => by
    rw [hdim] at hk
    simp only [hval _ k hk]
    exact hf.deriv k hk
  adj := fun h1 h2 h3 h4 => by
    rw [hdim] at h3 ⊢
    exact hf.adj h1 h2 h3 h4

/-- A method that calls the method of the child with one new operation. -/
theorem Good.un {o o' : Un} {D : Diff} {F' : Nat → (E →L[ℝ] ℝ)} (hf : Good F p δ v f Df f') (hw : (Form.un o f).WF)
    (hdef : unDef o f.dim (f.val (F p)))
    (hD : ∀ η, D η = (do Df (← mkUn o' η)))
    (hdim : o'.dim (o.dim f.dim) = f.dim) (hn : ∀ n, o' = .sumT n → 0 < n ∧ n % 2 = 0)
    (hdef' : ∀ d x, unDef o' d x)
    (hder : ∀ k < o.dim f.dim, HasFDerivAt (fun q => unVal o f.dim (f.val (F q)) k) (F' k) p)
    (hip : ∀ x, ip f.dim (unVal o' (o.dim f.dim) x) f' = ip (o.dim f.dim) x F') :
    Good F p δ v (.un o f) D F' where
  wf := hw
  defined := ⟨hf.defined, hdef⟩
  deriv := hder
  adj := fun {η r} h1 h2 h3 h4 => by
    rw [hD] at h4
    obtain ⟨η', he, h4⟩ := bindOk h4
    obtain ⟨rfl, ha⟩ := mkUn_ok he
    have h3' : η.dim = o.dim f.dim := h3
    have := hf.adj (η := .un o' η) ⟨h1, ha, hn⟩ ⟨h2, hdef' _ _⟩ (by rw [← hdim, ← h3']; rfl) h4
    refine ⟨this.1, this.2.1, this.2.2.1, ?_⟩
    rw [this.2.2.2, show (Form.un o f).dim = o.dim f.dim from rfl, ← hip, ← h3']
    rfl

theorem even_of {o : Un} {f : Form} (hw : (Form.un o f).WF) (h : ∀ d, o.accept d = true → d % 2 = 0) :
    ∃ m, f.dim = 2 * m := ⟨f.dim / 2, by have := h _ hw.2.1; omega⟩

theorem Good.conj (hf : Good F p δ v f Df f') (hw : (Form.un .conj f).WF) :
    ∃ F', Good F p δ v (.un .conj f) (dConj Df) F' := by
  obtain ⟨m, hm⟩ := even_of hw fun d h => eq_of_beq h
  refine ⟨fun i => if i % 2 = 0 then f' i else -f' i,
    hf.un hw trivial (o' := .conj) (fun _ => rfl) rfl (fun n h => by cases h) (fun _ _ => trivial) ?_ ?_⟩
  · intro i hi
    have hi : i < f.dim := hi
    rcases Nat.even_or_odd' i with ⟨k, rfl | rfl⟩
    · simp only [unVal, store_even, Nat.mul_mod_right, if_true]
      exact hf.deriv (2 * k) hi
    · have : (2 * k + 1) % 2 = 1 := by omega
      simp only [unVal, store_odd, this, one_ne_zero, if_false]
      exact (hf.deriv (2 * k + 1) hi).neg
  · intro x
    show ip f.dim _ _ = ip f.dim _ _
    apply ip_congr
    intro i hi
    rcases Nat.even_or_odd' i with ⟨k, rfl | rfl⟩
    · simp [unVal, store_even, cplx]
    · have : (2 * k + 1) % 2 = 1 := by omega
      simp only [unVal, store_odd, this, cplx, Complex.conj_im, one_ne_zero, if_false]
      module

theorem Good.real (hf : Good F p δ v f Df f') (hw : (Form.un .real f).WF) :
    ∃ F', Good F p δ v (.un .real f) (dReal Df) F' := by
  obtain ⟨m, hm⟩ := even_of hw fun d h => eq_of_beq h
  have hm' : Un.real.dim f.dim = m := by show f.dim / 2 = m; omega
  refine ⟨fun i => f' (2 * i),
    hf.un hw trivial (o' := .ofReal) (fun _ => rfl) (by rw [hm', hm]; rfl) (fun n h => by cases h)
      (fun _ _ => trivial) ?_ ?_⟩
  · intro i hi
    exact hf.deriv (2 * i) (by omega)
  · intro x
    rw [hm', hm, ip_pairs]
    refine sum_congr rfl fun k _ => ?_
    simp [unVal, store_even, store_odd]

theorem Good.imag (hf : Good F p δ v f Df f') (hw : (Form.un .imag f).WF) :
    ∃ F', Good F p δ v (.un .imag f) (dImag Df) F' := by
  obtain ⟨m, hm⟩ := even_of hw fun d h => eq_of_beq h
  have hm' : Un.imag.dim f.dim = m := by show f.dim / 2 = m; omega
  refine ⟨fun i => f' (2 * i + 1),
    hf.un hw trivial (o' := .ofImag) (fun _ => rfl) (by rw [hm', hm]; rfl) (fun n h => by cases h)
      (fun _ _ => trivial) ?_ ?_⟩
  · intro i hi
    exact hf.deriv (2 * i + 1) (by omega)
  · intro x
    rw [hm', hm, ip_pairs]
    refine sum_congr rfl fun k _ => ?_
    simp [unVal, store_even, store_odd]

theorem Good.ofReal (hf : Good F p δ v f Df f') (hw : (Form.un .ofReal f).WF) :
    ∃ F', Good F p δ v (.un .ofReal f) (dOfReal Df) F' := by
  refine ⟨fun i => if i % 2 = 0 then f' (i / 2) else 0,
    hf.un hw trivial (o' := .real) (fun _ => rfl) (by simp [Un.dim]) (fun n h => by cases h)
      (fun _ _ => trivial) ?_ ?_⟩
  · intro i hi
    have hi : i < 2 * f.dim := hi
    rcases Nat.even_or_odd' i with ⟨k, rfl | rfl⟩
    · have : 2 * k / 2 = k := by omega
      simp only [unVal, store_even, Nat.mul_mod_right, if_true, this]
      exact hf.deriv k (by omega)
    · have : (2 * k + 1) % 2 = 1 := by omega
      simp only [unVal, store_odd, this, one_ne_zero, if_false, Complex.ofReal_im]
      exact hasFDerivAt_const _ _
  · intro x
    rw [show Un.ofReal.dim f.dim = 2 * f.dim from rfl, ip_pairs]
    refine sum_congr rfl fun k _ => ?_
    have h1 : 2 * k / 2 = k := by omega
    have h2 : (2 * k + 1) % 2 = 1 := by omega
    simp [unVal, cplx, h1, h2]

theorem Good.ofImag (hf : Good F p δ v f Df f') (hw : (Form.un .ofImag f).WF) :
    ∃ F', Good F p δ v (.un .ofImag f) (dOfImag Df) F' := by
  refine ⟨fun i => if i % 2 = 0 then 0 else f' (i / 2),
    hf.un hw trivial (o' := .imag) (fun _ => rfl) (by simp [Un.dim]) (fun n h => by cases h)
      (fun _ _ => trivial) ?_ ?_⟩
  · intro i hi
    have hi : i < 2 * f.dim := hi
    rcases Nat.even_or_odd' i with ⟨k, rfl | rfl⟩
    · simp only [unVal, store_even, Nat.mul_mod_right, if_true]
      have : (fun q => ((f.val (F q) k : ℂ) * Complex.I).re) = fun _ => 0 := by funext q; simp
      rw [this]
      exact hasFDerivAt_const _ _
    · have h1 : (2 * k + 1) % 2 = 1 := by omega
      have h2 : (2 * k + 1) / 2 = k := by omega
      have : (fun q => ((f.val (F q) k : ℂ) * Complex.I).im) = fun q => f.val (F q) k := by funext q; simp
      simp only [unVal, store_odd, h1, h2, one_ne_zero, if_false, this]
      exact hf.deriv k (by omega)
  · intro x
    rw [show Un.ofImag.dim f.dim = 2 * f.dim from rfl, ip_pairs]
    refine sum_congr rfl fun k _ => ?_
    have h1 : (2 * k + 1) / 2 = k := by omega
    have h2 : (2 * k + 1) % 2 = 1 := by omega
    simp [unVal, cplx, h1, h2]

theorem Good.sum (hf : Good F p δ v f Df f') (hw : (Form.un .sum f).WF) :
    ∃ F', Good F p δ v (.un .sum f) (dSum f.dim Df) F' := by
  obtain ⟨m, hm⟩ := even_of hw fun d h => eq_of_beq h
  have hpos := hf.wf.pos
  refine ⟨fun i => ∑ k ∈ range m, f' (2 * k + i),
    hf.un hw trivial (o' := .sumT f.dim) (fun _ => rfl) rfl
      (fun n h => by cases h; omega) (fun _ _ => trivial) ?_ ?_⟩
  · intro i hi
    have h2 : 2 * m / 2 = m := by omega
    have hi : i < 2 := hi
    obtain rfl | rfl : i = 0 ∨ i = 1 := by omega
    · have : (fun q => unVal .sum f.dim (f.val (F q)) 0) = fun q => ∑ k ∈ range m, f.val (F q) (2 * k) := by
        funext q; simp [unVal, store, hm, h2, cplx]
      rw [this]
      exact HasFDerivAt.fun_sum fun k hk => hf.deriv _ (by have := mem_range.mp hk; omega)
    · have : (fun q => unVal .sum f.dim (f.val (F q)) 1) = fun q => ∑ k ∈ range m, f.val (F q) (2 * k + 1) := by
        funext q; simp [unVal, store, hm, h2, cplx]
      rw [this]
      exact HasFDerivAt.fun_sum fun k hk => hf.deriv _ (by have := mem_range.mp hk; omega)
  · intro x
    rw [show Un.sum.dim f.dim = 2 from rfl, hm, ip_pairs]
    simp only [ip, unVal, store_even, store_odd, cplx, sum_add_distrib, ← smul_sum, sum_range_succ, sum_range_zero,
      mul_zero, zero_add, add_zero]

theorem Good.sumT {n : Nat} (hf : Good F p δ v f Df f') (hw : (Form.un (.sumT n) f).WF) :
    ∃ F', Good F p δ v (.un (.sumT n) f) (dSumT Df) F' := by
  obtain ⟨h0, he⟩ := hw.2.2 n rfl
  have h2 : f.dim = 2 := eq_of_beq hw.2.1
  obtain ⟨m, rfl⟩ : ∃ m, n = 2 * m := ⟨n / 2, by omega⟩
  refine ⟨fun i => f' (i % 2), hf.un hw trivial (o' := .sum) (fun _ => rfl) h2.symm
      (fun n h => by cases h) (fun _ _ => trivial) ?_ ?_⟩
  · intro i hi
    rcases Nat.even_or_odd' i with ⟨k, rfl | rfl⟩
    · simp only [unVal, store_even, Nat.mul_mod_right]
      exact hf.deriv 0 (by omega)
    · have : (2 * k + 1) % 2 = 1 := by omega
      simp only [unVal, store_odd, this]
      exact hf.deriv 1 (by omega)
  · intro x
    have h1 : 2 * m / 2 = m := by omega
    have h3 : ∀ k, (2 * k + 1) % 2 = 1 := fun k => by omega
    rw [h2, show (Un.sumT (2 * m)).dim 2 = 2 * m from rfl, ip_pairs]
    simp only [Nat.mul_mod_right, h3, ip, unVal, sum_range_succ, sum_range_zero, zero_add, store, h1,
      Nat.zero_mod, if_true, Complex.re_sum, Complex.im_sum, cplx, Nat.one_mod, one_ne_zero, if_false,
      sum_add_distrib, sum_smul]

/-! ## Broadcasting -/

/-- Position of the complex number read at the place `k` in an argument of dimension `d`. -/
def pos (d k : Nat) : Nat := if d = 2 then 0 else k

theorem bcast_eq (d : Nat) (x : Vec) (k : Nat) : bcast d x k = cplx x (pos d k) := by
  unfold bcast pos
  split_ifs <;> rfl

theorem pos_lt {d k : Nat} (h : d = 2 * m ∨ d = 2) (hk : k < m) : 2 * pos d k + 1 < d := by
  unfold pos
  split_ifs <;> omega

/-- The argument given to the method of a child that may be broadcast: the sum of the components for a child that
is, and the components otherwise. -/
theorem ip_bcast {d : Nat} (hd : d = 2 * m ∨ d = 2) (hm : 0 < m) (x : Vec) :
    (d = 2 ∧ 2 * m > 2 → ip d (unVal .sum (2 * m) x) f' =
      ∑ k ∈ range m, (x (2 * k) • f' (2 * pos d k) + x (2 * k + 1) • f' (2 * pos d k + 1))) ∧
    (¬(d = 2 ∧ 2 * m > 2) → ip d x f' =
      ∑ k ∈ range m, (x (2 * k) • f' (2 * pos d k) + x (2 * k + 1) • f' (2 * pos d k + 1))) := by
  have h1 : 2 * m / 2 = m := by omega
  constructor
  · rintro ⟨rfl, _⟩
    simp only [pos, if_true, ip, unVal, sum_range_succ, sum_range_zero, zero_add, store, h1, Nat.zero_mod,
      Complex.re_sum, Complex.im_sum, cplx, Nat.one_mod, one_ne_zero, if_false, sum_add_distrib, mul_zero]
    simp [sum_smul]
  · intro h
    have hd' : d = 2 * m := by omega
    rw [hd', ip_pairs]
    refine sum_congr rfl fun k hk => ?_
    have : pos (2 * m) k = k := by
      have := mem_range.mp hk
      unfold pos
      split_ifs <;> omega
    rw [this]

theorem WF_sum {η : Form} (h : η.WF) (he : η.dim = 2 * m) : (Form.un .sum η).WF :=
  ⟨h, by show (η.dim % 2 == 0) = true; rw [he]; simp, fun n h => by cases h⟩

theorem Good.adjSum (hf : Good F p δ v f Df f') (hm : 0 < m) (hd : f.dim = 2 * m ∨ f.dim = 2) (hb : f.dim = 2 ∧ 2 * m > 2)
    {η r : Form} (h1 : η.WF) (h2 : η.Def (F p)) (h3 : η.dim = 2 * m) (h4 : Df (.un .sum η) = .ok r) :
    r.WF ∧ r.Def (F p) ∧ r.dim = v.dim ∧ ip v.dim (r.val (F p)) δ =
      ∑ k ∈ range m, (η.val (F p) (2 * k) • f' (2 * pos f.dim k) +
        η.val (F p) (2 * k + 1) • f' (2 * pos f.dim k + 1)) := by
  have := hf.adj (η := .un .sum η) (WF_sum h1 h3) ⟨h2, trivial⟩ hb.1.symm h4
  refine ⟨this.1, this.2.1, this.2.2.1, ?_⟩
  rw [this.2.2.2, ← (ip_bcast hd hm _).1 hb, ← h3]
  rfl

theorem Good.adjSame (hf : Good F p δ v f Df f') (hm : 0 < m) (hd : f.dim = 2 * m ∨ f.dim = 2) (hb : ¬(f.dim = 2 ∧ 2 * m > 2))
    {η r : Form} (h1 : η.WF) (h2 : η.Def (F p)) (h3 : η.dim = 2 * m) (h4 : Df η = .ok r) :
    r.WF ∧ r.Def (F p) ∧ r.dim = v.dim ∧ ip v.dim (r.val (F p)) δ =
      ∑ k ∈ range m, (η.val (F p) (2 * k) • f' (2 * pos f.dim k) +
        η.val (F p) (2 * k + 1) • f' (2 * pos f.dim k + 1)) := by
  have := hf.adj (η := η) h1 h2 (by omega) h4
  refine ⟨this.1, this.2.1, this.2.2.1, ?_⟩
  rw [this.2.2.2, ← (ip_bcast hd hm _).2 hb]

/-- `ComplexAdd` and `ComplexSubtract` of two vectors of the same dimension are the sum and the difference. -/
theorem ip_addSub {r s : Form} {o : Bin} (ho : o = .add ∨ o = .sub) (hr : r.dim = v.dim) (hs : s.dim = v.dim) :
    ip v.dim ((Form.bin o r s).val (F p)) δ = ip v.dim (r.val (F p)) δ +
      (if o = .add then (1 : ℝ) else -1) • ip v.dim (s.val (F p)) δ := by
  have hb : ∀ (x : Vec) (i : Nat), i < v.dim → bcast v.dim x (i / 2) = cplx x (i / 2) := fun x i hi => by
    rw [bcast_eq]
    congr 1
    unfold pos
    split_ifs <;> omega
  simp only [ip, smul_sum, ← sum_add_distrib]
  refine sum_congr rfl fun i hi => ?_
  have hi := mem_range.mp hi
  show binVal o r.dim s.dim _ _ i • _ = _
  rw [hr, hs]
  rcases ho with rfl | rfl
  all_goals
    simp only [binVal, store, hb _ i hi, cplx, reduceCtorEq, if_true, if_false]
    by_cases h : i % 2 = 0
    · have : 2 * (i / 2) = i := by omega
      rw [if_pos h]
      simp only [Complex.add_re, Complex.sub_re, this]
      module
    · have : 2 * (i / 2) + 1 = i := by omega
      rw [if_neg h]
      simp only [Complex.add_im, Complex.sub_im, this]
      module

theorem accept_dims {o : Bin} (ho : o = .add ∨ o = .sub ∨ o = .mul) (hw : (Form.bin o f g).WF) :
    ∃ m, 0 < m ∧ (Form.bin o f g).dim = 2 * m ∧ (f.dim = 2 * m ∨ f.dim = 2) ∧ (g.dim = 2 * m ∨ g.dim = 2) ∧
      max f.dim g.dim = 2 * m := by
  obtain ⟨m, h1, h2, h3⟩ := accept_cplx ho hw.2.2
  have := hw.1.pos
  refine ⟨m, by omega, ?_, h2, h3, h1⟩
  rcases ho with rfl | rfl | rfl <;> exact h1

/-- The three cases of the methods of `ComplexAdd`, `ComplexSubtract` and `ComplexMult`. -/
theorem Good.both {o : Bin} (hf : Good F p δ v f Df f') (hg : Good F p δ v g Dg g') (hm : 0 < m)
    (h1 : f.dim = 2 * m ∨ f.dim = 2) (h2 : g.dim = 2 * m ∨ g.dim = 2) (ho : o = .add ∨ o = .sub)
    (hmax : max f.dim g.dim = 2 * m)
    {a b r : Form} (ha : a.WF ∧ a.Def (F p) ∧ a.dim = 2 * m) (hb : b.WF ∧ b.Def (F p) ∧ b.dim = 2 * m)
    (h : (f.dim = 2 ∧ g.dim > 2 ∧ ∃ s t, Df (.un .sum a) = .ok s ∧ Dg b = .ok t ∧ mkBin o s t = .ok r) ∨
      (g.dim = 2 ∧ f.dim > 2 ∧ ∃ s t, Df a = .ok s ∧ Dg (.un .sum b) = .ok t ∧ mkBin o s t = .ok r) ∨
      (¬(f.dim = 2 ∧ g.dim > 2) ∧ ¬(g.dim = 2 ∧ f.dim > 2) ∧
        ∃ s t, Df a = .ok s ∧ Dg b = .ok t ∧ mkBin o s t = .ok r)) :
    r.WF ∧ r.Def (F p) ∧ r.dim = v.dim ∧ ip v.dim (r.val (F p)) δ =
      ∑ k ∈ range m, (a.val (F p) (2 * k) • f' (2 * pos f.dim k) +
        a.val (F p) (2 * k + 1) • f' (2 * pos f.dim k + 1)) +
      (if o = .add then (1 : ℝ) else -1) • ∑ k ∈ range m, (b.val (F p) (2 * k) • g' (2 * pos g.dim k) +
        b.val (F p) (2 * k + 1) • g' (2 * pos g.dim k + 1)) := by
  have fin : ∀ {s t : Form} {A B : E →L[ℝ] ℝ},
      (s.WF ∧ s.Def (F p) ∧ s.dim = v.dim ∧ ip v.dim (s.val (F p)) δ = A) →
      (t.WF ∧ t.Def (F p) ∧ t.dim = v.dim ∧ ip v.dim (t.val (F p)) δ = B) → mkBin o s t = .ok r →
      r.WF ∧ r.Def (F p) ∧ r.dim = v.dim ∧ ip v.dim (r.val (F p)) δ =
        A + (if o = .add then (1 : ℝ) else -1) • B := by
    intro s t A B hs ht hr
    obtain ⟨rfl, hacc⟩ := mkBin_ok hr
    refine ⟨⟨hs.1, ht.1, hacc⟩, ⟨hs.2.1, ht.2.1, by rcases ho with rfl | rfl <;> trivial⟩, ?_, ?_⟩
    · have : (Form.bin o s t).dim = max s.dim t.dim := by rcases ho with rfl | rfl <;> rfl
      rw [this, hs.2.2.1, ht.2.2.1, max_self]
    · rw [ip_addSub ho hs.2.2.1 ht.2.2.1, hs.2.2.2, ht.2.2.2]
  rcases h with ⟨e1, e2, s, t, hs, ht, hr⟩ | ⟨e1, e2, s, t, hs, ht, hr⟩ | ⟨e1, e2, s, t, hs, ht, hr⟩
  · exact fin (hf.adjSum hm h1 (by omega) ha.1 ha.2.1 ha.2.2 hs)
      (hg.adjSame hm h2 (by omega) hb.1 hb.2.1 hb.2.2 ht) hr
  · exact fin (hf.adjSame hm h1 (by omega) ha.1 ha.2.1 ha.2.2 hs)
      (hg.adjSum hm h2 (by omega) hb.1 hb.2.1 hb.2.2 ht) hr
  · exact fin (hf.adjSame hm h1 (by omega) ha.1 ha.2.1 ha.2.2 hs)
      (hg.adjSame hm h2 (by omega) hb.1 hb.2.1 hb.2.2 ht) hr

theorem Good.addSub {o : Bin} (ho : o = .add ∨ o = .sub) (hf : Good F p δ v f Df f') (hg : Good F p δ v g Dg g')
    (hw : (Form.bin o f g).WF) : ∃ F', Good F p δ v (.bin o f g) (dAddSub o f.dim g.dim Df Dg) F' := by
  obtain ⟨m, hm, hdim, h1, h2, hmax⟩ := accept_dims (by tauto) hw
  refine ⟨fun i => f' (2 * pos f.dim (i / 2) + i % 2) +
    (if o = .add then (1 : ℝ) else -1) • g' (2 * pos g.dim (i / 2) + i % 2), hw,
    ⟨hf.defined, hg.defined, by rcases ho with rfl | rfl <;> trivial⟩, ?_, ?_⟩
  · intro i hi
    rw [hdim] at hi
    have a1 := pos_lt (k := i / 2) h1 (by omega)
    have a2 := pos_lt (k := i / 2) h2 (by omega)
    have d1 := hf.deriv (2 * pos f.dim (i / 2) + i % 2) (by omega)
    have d2 := hg.deriv (2 * pos g.dim (i / 2) + i % 2) (by omega)
    by_cases he : i % 2 = 0
    · rw [he] at d1 d2 ⊢
      rcases ho with rfl | rfl
      · simp only [Form.val, binVal, store, he, if_true, bcast_eq, Complex.add_re, cplx, one_smul]
        exact d1.add d2
      · simp only [Form.val, binVal, store, he, if_true, bcast_eq, Complex.sub_re, cplx, reduceCtorEq, if_false]
        exact (d1.sub d2).congr_fderiv (by module)
    · have he : i % 2 = 1 := by omega
      rw [he] at d1 d2 ⊢
      rcases ho with rfl | rfl
      · simp only [Form.val, binVal, store, he, one_ne_zero, if_false, if_true, bcast_eq, Complex.add_im, cplx, one_smul]
        exact d1.add d2
      · simp only [Form.val, binVal, store, he, one_ne_zero, bcast_eq, Complex.sub_im, cplx, reduceCtorEq, if_false]
        exact (d1.sub d2).congr_fderiv (by module)
  · intro η r e1 e2 e3 e4
    rw [hdim] at e3
    have key := Good.both hf hg hm h1 h2 ho hmax (a := η) (b := η) (r := r) ⟨e1, e2, e3⟩ ⟨e1, e2, e3⟩ (by
      unfold dAddSub at e4
      by_cases c1 : f.dim = 2 ∧ g.dim > 2
      · rw [if_pos c1] at e4
        obtain ⟨u, hu, e4⟩ := bindOk e4
        obtain ⟨rfl, -⟩ := mkUn_ok hu
        obtain ⟨s, hs, e4⟩ := bindOk e4
        obtain ⟨t, ht, e4⟩ := bindOk e4
        exact .inl ⟨c1.1, c1.2, s, t, hs, ht, e4⟩
      · rw [if_neg c1] at e4
        by_cases c2 : g.dim = 2 ∧ f.dim > 2
        · rw [if_pos c2] at e4
          obtain ⟨s, hs, e4⟩ := bindOk e4
          obtain ⟨u, hu, e4⟩ := bindOk e4
          obtain ⟨rfl, -⟩ := mkUn_ok hu
          obtain ⟨t, ht, e4⟩ := bindOk e4
          exact .inr (.inl ⟨c2.1, c2.2, s, t, hs, ht, e4⟩)
        · rw [if_neg c2] at e4
          obtain ⟨s, hs, e4⟩ := bindOk e4
          obtain ⟨t, ht, e4⟩ := bindOk e4
          exact .inr (.inr ⟨c1, c2, s, t, hs, ht, e4⟩))
    refine ⟨key.1, key.2.1, key.2.2.1, ?_⟩
    rw [key.2.2.2, hdim, ip_pairs, smul_sum, ← sum_add_distrib]
    refine sum_congr rfl fun k _ => ?_
    have q1 : 2 * k / 2 = k := by omega
    have q2 : (2 * k + 1) / 2 = k := by omega
    have q3 : (2 * k + 1) % 2 = 1 := by omega
    simp only [q1, q2, q3, Nat.mul_mod_right, add_zero]
    module

theorem Good.mul (hf : Good F p δ v f Df f') (hg : Good F p δ v g Dg g')
    (hw : (Form.bin .mul f g).WF) : ∃ F', Good F p δ v (.bin .mul f g) (dMul f g Df Dg) F' := by
  obtain ⟨m, hm, hdim, h1, h2, hmax⟩ := accept_dims (by tauto) hw
  let x := f.val (F p)
  let y := g.val (F p)
  refine ⟨fun i => if i % 2 = 0 then
      (x (2 * pos f.dim (i / 2)) • g' (2 * pos g.dim (i / 2)) + y (2 * pos g.dim (i / 2)) • f' (2 * pos f.dim (i / 2))) -
      (x (2 * pos f.dim (i / 2) + 1) • g' (2 * pos g.dim (i / 2) + 1) +
        y (2 * pos g.dim (i / 2) + 1) • f' (2 * pos f.dim (i / 2) + 1))
    else
      (x (2 * pos f.dim (i / 2)) • g' (2 * pos g.dim (i / 2) + 1) +
        y (2 * pos g.dim (i / 2) + 1) • f' (2 * pos f.dim (i / 2))) +
      (x (2 * pos f.dim (i / 2) + 1) • g' (2 * pos g.dim (i / 2)) +
        y (2 * pos g.dim (i / 2)) • f' (2 * pos f.dim (i / 2) + 1)), hw,
    ⟨hf.defined, hg.defined, trivial⟩, ?_, ?_⟩
  · intro i hi
    rw [hdim] at hi
    have a1 := pos_lt (k := i / 2) h1 (by omega)
    have a2 := pos_lt (k := i / 2) h2 (by omega)
    have d1 := hf.deriv (2 * pos f.dim (i / 2)) (by omega)
    have d1' := hf.deriv (2 * pos f.dim (i / 2) + 1) (by omega)
    have d2 := hg.deriv (2 * pos g.dim (i / 2)) (by omega)
    have d2' := hg.deriv (2 * pos g.dim (i / 2) + 1) (by omega)
    by_cases he : i % 2 = 0
    · simp only [Form.val, binVal, store, he, if_true, bcast_eq, Complex.mul_re, cplx]
      exact (d1.mul d2).sub (d1'.mul d2')
    · simp only [Form.val, binVal, store, he, if_false, bcast_eq, Complex.mul_im, cplx]
      exact (d1.mul d2').add (d1'.mul d2)
  · intro η r e1 e2 e3 e4
    rw [hdim] at e3
    have conjW : ∀ {u : Form}, u.WF → (u.dim = 2 * m ∨ u.dim = 2) → (Form.un .conj u).WF := fun hu hd =>
      ⟨hu, by show (_ % 2 == 0) = true; rcases hd with h | h <;> simp [h], fun n h => by cases h⟩
    have mulW : ∀ {u : Form}, u.WF → u.Def (F p) → (u.dim = 2 * m ∨ u.dim = 2) →
        (Form.bin .mul (.un .conj u) η).WF ∧ (Form.bin .mul (.un .conj u) η).Def (F p) ∧
          (Form.bin .mul (.un .conj u) η).dim = 2 * m := fun {u} hu hd hdu => by
      refine ⟨⟨conjW hu hdu, e1, ?_⟩, ⟨⟨hd, trivial⟩, e2, trivial⟩, ?_⟩
      · show (max u.dim η.dim % 2 == 0 && (u.dim == η.dim || min u.dim η.dim == 2)) = true
        rw [e3]
        rcases hdu with h | h <;> rw [h] <;> simp <;> omega
      · show max u.dim η.dim = 2 * m
        omega
    have key := Good.both (o := .add) hf hg hm h1 h2 (.inl rfl) hmax (a := .bin .mul (.un .conj g) η)
      (b := .bin .mul (.un .conj f) η) (r := r) (mulW hg.wf hg.defined h2) (mulW hf.wf hf.defined h1) (by
      unfold dMul at e4
      by_cases c1 : f.dim = 2 ∧ g.dim > 2
      · rw [if_pos c1] at e4
        obtain ⟨u, hu, e4⟩ := bindOk e4
        obtain ⟨rfl, -⟩ := mkUn_ok hu
        obtain ⟨u, hu, e4⟩ := bindOk e4
        obtain ⟨rfl, -⟩ := mkBin_ok hu
        obtain ⟨u, hu, e4⟩ := bindOk e4
        obtain ⟨rfl, -⟩ := mkUn_ok hu
        obtain ⟨s, hs, e4⟩ := bindOk e4
        obtain ⟨u, hu, e4⟩ := bindOk e4
        obtain ⟨rfl, -⟩ := mkUn_ok hu
        obtain ⟨u, hu, e4⟩ := bindOk e4
        obtain ⟨rfl, -⟩ := mkBin_ok hu
        obtain ⟨t, ht, e4⟩ := bindOk e4
        exact .inl ⟨c1.1, c1.2, s, t, hs, ht, e4⟩
      · rw [if_neg c1] at e4
        by_cases c2 : g.dim = 2 ∧ f.dim > 2
        · rw [if_pos c2] at e4
          obtain ⟨u, hu, e4⟩ := bindOk e4
          obtain ⟨rfl, -⟩ := mkUn_ok hu
          obtain ⟨u, hu, e4⟩ := bindOk e4
          obtain ⟨rfl, -⟩ := mkBin_ok hu
          obtain ⟨s, hs, e4⟩ := bindOk e4
          obtain ⟨u, hu, e4⟩ := bindOk e4
          obtain ⟨rfl, -⟩ := mkUn_ok hu
          obtain ⟨u, hu, e4⟩ := bindOk e4
          obtain ⟨rfl, -⟩ := mkBin_ok hu
          obtain ⟨u, hu, e4⟩ := bindOk e4
          obtain ⟨rfl, -⟩ := mkUn_ok hu
          obtain ⟨t, ht, e4⟩ := bindOk e4
          exact .inr (.inl ⟨c2.1, c2.2, s, t, hs, ht, e4⟩)
        · rw [if_neg c2] at e4
          obtain ⟨u, hu, e4⟩ := bindOk e4
          obtain ⟨rfl, -⟩ := mkUn_ok hu
          obtain ⟨u, hu, e4⟩ := bindOk e4
          obtain ⟨rfl, -⟩ := mkBin_ok hu
          obtain ⟨s, hs, e4⟩ := bindOk e4
          obtain ⟨u, hu, e4⟩ := bindOk e4
          obtain ⟨rfl, -⟩ := mkUn_ok hu
          obtain ⟨u, hu, e4⟩ := bindOk e4
          obtain ⟨rfl, -⟩ := mkBin_ok hu
          obtain ⟨t, ht, e4⟩ := bindOk e4
          exact .inr (.inr ⟨c1, c2, s, t, hs, ht, e4⟩))
    refine ⟨key.1, key.2.1, key.2.2.1, ?_⟩
    rw [key.2.2.2, hdim, ip_pairs, smul_sum, ← sum_add_distrib]
    refine sum_congr rfl fun k hk => ?_
    have hk := mem_range.mp hk
    have q1 : 2 * k / 2 = k := by omega
    have q2 : (2 * k + 1) / 2 = k := by omega
    have q3 : (2 * k + 1) % 2 = 1 := by omega
    have q4 : pos η.dim k = k := by unfold pos; split_ifs <;> omega
    have q5 : ∀ u : Form, bcast (Form.un .conj u).dim ((Form.un .conj u).val (F p)) k =
        (starRingEnd ℂ) (cplx (u.val (F p)) (pos u.dim k)) := fun u => by
      have : (Form.un .conj u).val (F p) = store fun k => (starRingEnd ℂ) (cplx (u.val (F p)) k) := rfl
      rw [bcast_eq, this, cplx_store]
      rfl
    have q6 : ∀ u : Form, (Form.bin .mul (.un .conj u) η).val (F p) = store fun k =>
        bcast (Form.un .conj u).dim ((Form.un .conj u).val (F p)) k * bcast η.dim (η.val (F p)) k := fun _ => rfl
    simp only [q1, q2, q3, Nat.mul_mod_right, if_true, one_ne_zero, if_false, q6, store_even, store_odd, q5]
    simp only [bcast_eq, q4, Complex.mul_re, Complex.mul_im, Complex.conj_re, Complex.conj_im, cplx, x, y]
    module

/-! ## Real operations -/

theorem ip_smul {n : Nat} {a : Vec} {b : Nat → (E →L[ℝ] ℝ)} (c : ℝ) : ip n (fun k => a k * c) b = c • ip n a b := by
  unfold ip
  rw [smul_sum]
  exact sum_congr rfl fun k _ => by module

theorem cst_of_lt {d k : Nat} (x : Vec) (h : k < d) : cst d x k = x k := by
  unfold cst
  split_ifs with h'
  · congr 1; omega
  · rfl

/-- The formula `df` has the values `c`, and dimension `d`. -/
structure Scale (F : E → Env) (p : E) (df : Form) (d : Nat) (c : Vec) : Prop where
  wf : df.WF
  defined : df.Def (F p)
  dim : df.dim = d
  val : ∀ k < d, df.val (F p) k = c k

/-- One term of the sum of `VectorizedScalarOp.DiffT`. -/
theorem Good.term {df : Form} {c : Vec} (hf : Good F p δ v f Df f') (hv : 0 < v.dim)
    (hdf : Scale F p df f.dim c) {η r : Form} (h1 : η.WF) (h2 : η.Def (F p)) (h3 : η.dim = f.dim)
    (h4 : dTerm df Df η = .ok r) : r.WF ∧ r.Def (F p) ∧ r.dim = v.dim ∧
      ip v.dim (r.val (F p)) δ = ip f.dim (η.val (F p)) fun k => c k • f' k := by
  unfold dTerm at h4
  by_cases hd : df.dim = 1
  · rw [if_pos hd] at h4
    obtain ⟨s, hs, h4⟩ := bindOk h4
    obtain ⟨rfl, ha⟩ := mkBin_ok h4
    obtain ⟨s1, s2, s3, s4⟩ := hf.adj h1 h2 h3 hs
    have hf1 : f.dim = 1 := by rw [← hdf.dim]; exact hd
    refine ⟨⟨s1, hdf.wf, ha⟩, ⟨s2, hdf.defined, trivial⟩, ?_, ?_⟩
    · show max s.dim df.dim = v.dim
      omega
    · have : ∀ k < v.dim, (Form.bin .rmul s df).val (F p) k = s.val (F p) k * c 0 := fun k hk => by
        show cst s.dim _ k * cst df.dim _ k = _
        rw [s3, hd, cst_of_lt _ hk]
        unfold cst
        rw [if_pos rfl, hdf.val 0 (by omega)]
      rw [ip_congr fun k hk => by rw [this k hk], ip_smul, s4, hf1]
      simp only [ip, sum_range_one]
      module
  · rw [if_neg hd] at h4
    obtain ⟨s, hs, h4⟩ := bindOk h4
    obtain ⟨rfl, ha⟩ := mkBin_ok hs
    have hdim := hdf.dim
    obtain ⟨s1, s2, s3, s4⟩ := hf.adj (η := .bin .rmul η df) ⟨h1, hdf.wf, ha⟩ ⟨h2, hdf.defined, trivial⟩
      (by show max η.dim df.dim = _; omega) h4
    refine ⟨s1, s2, s3, ?_⟩
    rw [s4]
    apply ip_congr
    intro k hk
    show (cst η.dim _ k * cst df.dim _ k) • _ = _
    rw [cst_of_lt _ (by omega), cst_of_lt _ (by omega), hdf.val k hk]
    module

/-- A real operation with one argument. -/
theorem Good.realUn {o o' : Un} (hf : Good F p δ v f Df f') (hv : 0 < v.dim) (φ φ' : ℝ → ℝ)
    (ho : ∀ d x k, unVal o d x k = φ (x k)) (ho' : ∀ d x k, unVal o' d x k = φ' (x k))
    (hr : o.isReal = true) (hr' : o'.isReal = true) (hdef : unDef o f.dim (f.val (F p)))
    (hdef' : unDef o' f.dim (f.val (F p)))
    (hφ : ∀ k < f.dim, HasDerivAt φ (φ' (f.val (F p) k)) (f.val (F p) k)) :
    ∃ F', Good F p δ v (.un o f) (dTerm (.un o' f) Df) F' := by
  have W : ∀ o : Un, o.isReal = true → (Form.un o f).WF ∧ o.dim f.dim = f.dim := fun o h => by
    cases o <;> first | exact Bool.noConfusion h | exact ⟨⟨hf.wf, rfl, fun n h => by cases h⟩, rfl⟩
  refine ⟨fun k => φ' (f.val (F p) k) • f' k, (W o hr).1, ⟨hf.defined, hdef⟩, ?_, ?_⟩
  · intro k hk
    have hk : k < f.dim := by rw [← (W o hr).2]; exact hk
    have : (fun q => (Form.un o f).val (F q) k) = fun q => φ (f.val (F q) k) := by
      funext q; exact ho _ _ _
    rw [this]
    exact (hφ k hk).comp_hasFDerivAt p (hf.deriv k hk)
  · intro η r h1 h2 h3 h4
    rw [show (Form.un o f).dim = f.dim from (W o hr).2] at h3 ⊢
    exact hf.term hv ⟨(W o' hr').1, ⟨hf.defined, hdef'⟩, (W o' hr').2, fun k _ => ho' _ _ _⟩ h1 h2 h3 h4

/-- Sum of two results. -/
theorem ip_radd {r s : Form} (hr : r.dim = v.dim) (hs : s.dim = v.dim) :
    ip v.dim ((Form.bin .radd r s).val (F p)) δ = ip v.dim (r.val (F p)) δ + ip v.dim (s.val (F p)) δ := by
  simp only [ip, ← sum_add_distrib]
  refine sum_congr rfl fun i hi => ?_
  have hi := mem_range.mp hi
  show (cst r.dim _ i + cst s.dim _ i) • _ = _
  rw [hr, hs, cst_of_lt _ hi, cst_of_lt _ hi]
  module

theorem radd_res {r s t : Form} {A B : E →L[ℝ] ℝ}
    (hr : r.WF ∧ r.Def (F p) ∧ r.dim = v.dim ∧ ip v.dim (r.val (F p)) δ = A)
    (hs : s.WF ∧ s.Def (F p) ∧ s.dim = v.dim ∧ ip v.dim (s.val (F p)) δ = B) (h : mkBin .radd r s = .ok t) :
    t.WF ∧ t.Def (F p) ∧ t.dim = v.dim ∧ ip v.dim (t.val (F p)) δ = A + B := by
  obtain ⟨rfl, ha⟩ := mkBin_ok h
  refine ⟨⟨hr.1, hs.1, ha⟩, ⟨hr.2.1, hs.2.1, trivial⟩, ?_, ?_⟩
  · show max r.dim s.dim = _
    rw [hr.2.2.1, hs.2.2.1, max_self]
  · rw [ip_radd hr.2.2.1 hs.2.2.1, hr.2.2.2, hs.2.2.2]

theorem real_accept {o : Bin} (ho : o = .radd ∨ o = .rmul ∨ o = .ratan2 ∨ o = .datan2f ∨ o = .datan2g) (d : Nat) :
    o.accept d d = true ∧ o.dim d d = d := by
  rcases ho with rfl | rfl | rfl | rfl | rfl <;> simp [Bin.accept, Bin.dim]

theorem Good.rneg (hf : Good F p δ v f Df f') :
    ∃ F', Good F p δ v (.un .rneg f) (dNeg Df) F' := by
  refine ⟨fun k => -f' k, ⟨hf.wf, rfl, fun n h => by cases h⟩, ⟨hf.defined, trivial⟩,
    fun k hk => (hf.deriv k hk).neg, ?_⟩
  intro η r h1 h2 h3 h4
  obtain ⟨a, ha, hr⟩ := bindOk h4
  obtain ⟨rfl, hacc⟩ := mkUn_ok hr
  obtain ⟨w, d, e, i⟩ := hf.adj h1 h2 h3 ha
  refine ⟨⟨w, rfl, fun n h => by cases h⟩, ⟨d, trivial⟩, e, ?_⟩
  show ip v.dim (fun k => -a.val (F p) k) δ = ip f.dim _ _
  have key : ∀ n (x : Vec) (y : Nat → (E →L[ℝ] ℝ)), ip n (fun k => -x k) y = -ip n x y := fun n x y => by
    unfold ip
    rw [← Finset.sum_neg_distrib]
    exact Finset.sum_congr rfl fun k _ => ContinuousLinearMap.ext fun u => by
      simp only [ContinuousLinearMap.smul_apply, ContinuousLinearMap.neg_apply, smul_eq_mul]
      ring
  have key' : ∀ n (x : Vec) (y : Nat → (E →L[ℝ] ℝ)), ip n x (fun k => -y k) = -ip n x y := fun n x y => by
    unfold ip
    rw [← Finset.sum_neg_distrib]
    exact Finset.sum_congr rfl fun k _ => ContinuousLinearMap.ext fun u => by
      simp only [ContinuousLinearMap.smul_apply, ContinuousLinearMap.neg_apply, smul_eq_mul]
      ring
  rw [key, key', i]

theorem Good.radd (hf : Good F p δ v f Df f') (hg : Good F p δ v g Dg g') (hd : f.dim = g.dim) :
    ∃ F', Good F p δ v (.bin .radd f g) (dRadd f.dim g.dim Df Dg) F' := by
  have hdim : (Form.bin .radd f g).dim = f.dim := by show max f.dim g.dim = _; omega
  refine ⟨fun k => f' k + g' k, ⟨hf.wf, hg.wf, by rw [← hd]; exact (real_accept (by simp) _).1⟩,
    ⟨hf.defined, hg.defined, trivial⟩, ?_, ?_⟩
  · intro k hk
    rw [hdim] at hk
    have : (fun q => (Form.bin .radd f g).val (F q) k) = fun q => f.val (F q) k + g.val (F q) k := by
      funext q
      show cst f.dim _ k + cst g.dim _ k = _
      rw [cst_of_lt _ hk, cst_of_lt _ (by omega)]
    rw [this]
    exact (hf.deriv k hk).add (hg.deriv k (by omega))
  · intro η r h1 h2 h3 h4
    rw [hdim] at h3 ⊢
    unfold dRadd at h4
    rw [if_pos hd] at h4
    obtain ⟨s, hs, h4⟩ := bindOk h4
    obtain ⟨t, ht, h4⟩ := bindOk h4
    have := radd_res (hf.adj h1 h2 h3 hs) (hg.adj h1 h2 (by omega) ht) h4
    refine ⟨this.1, this.2.1, this.2.2.1, ?_⟩
    rw [this.2.2.2, ← hd]
    simp only [ip, smul_add, sum_add_distrib]

theorem Good.rmul (hf : Good F p δ v f Df f') (hg : Good F p δ v g Dg g') (hd : f.dim = g.dim) :
    ∃ F', Good F p δ v (.bin .rmul f g) (dRmul f g Df Dg) F' := by
  have hdim : (Form.bin .rmul f g).dim = f.dim := by show max f.dim g.dim = _; omega
  refine ⟨fun k => f.val (F p) k • g' k + g.val (F p) k • f' k,
    ⟨hf.wf, hg.wf, by rw [← hd]; exact (real_accept (by simp) _).1⟩,
    ⟨hf.defined, hg.defined, trivial⟩, ?_, ?_⟩
  · intro k hk
    rw [hdim] at hk
    have : (fun q => (Form.bin .rmul f g).val (F q) k) = fun q => f.val (F q) k * g.val (F q) k := by
      funext q
      show cst f.dim _ k * cst g.dim _ k = _
      rw [cst_of_lt _ hk, cst_of_lt _ (by omega)]
    rw [this]
    exact (hf.deriv k hk).mul (hg.deriv k (by omega))
  · intro η r h1 h2 h3 h4
    rw [hdim] at h3 ⊢
    unfold dRmul at h4
    rw [if_pos hd] at h4
    obtain ⟨a, ha, h4⟩ := bindOk h4
    obtain ⟨rfl, hacc⟩ := mkBin_ok ha
    obtain ⟨s, hs, h4⟩ := bindOk h4
    obtain ⟨b, hb, h4⟩ := bindOk h4
    obtain ⟨rfl, hacc'⟩ := mkBin_ok hb
    obtain ⟨t, ht, h4⟩ := bindOk h4
    have hmulv : ∀ {u : Form}, u.dim = f.dim → ∀ k < f.dim,
        (Form.bin .rmul u η).val (F p) k = u.val (F p) k * η.val (F p) k := fun {u} hu k hk => by
      show cst u.dim _ k * cst η.dim _ k = _
      rw [cst_of_lt _ (by omega), cst_of_lt _ (by omega)]
    have := radd_res
      (hf.adj (η := .bin .rmul g η) ⟨hg.wf, h1, hacc⟩ ⟨hg.defined, h2, trivial⟩ (by show max _ _ = _; omega) hs)
      (hg.adj (η := .bin .rmul f η) ⟨hf.wf, h1, hacc'⟩ ⟨hf.defined, h2, trivial⟩ (by show max _ _ = _; omega) ht) h4
    refine ⟨this.1, this.2.1, this.2.2.1, ?_⟩
    rw [this.2.2.2, ← hd]
    simp only [ip, ← sum_add_distrib]
    refine sum_congr rfl fun k hk => ?_
    have hk := mem_range.mp hk
    rw [hmulv hd.symm k hk, hmulv rfl k hk]
    module

theorem Good.ratan2 (hf : Good F p δ v f Df f') (hg : Good F p δ v g Dg g') (hd : f.dim = g.dim) (hv : 0 < v.dim)
    (hs : ∀ k < f.dim, 0 < g.val (F p) k ∨ f.val (F p) k ≠ 0) :
    ∃ F', Good F p δ v (.bin .ratan2 f g) (dRatan2 f g Df Dg) F' := by
  have hdim : ∀ {o : Bin}, o = .ratan2 ∨ o = .datan2f ∨ o = .datan2g → (Form.bin o f g).dim = f.dim := fun h => by
    show Bin.dim _ f.dim g.dim = _
    rw [← hd]
    exact (real_accept (by tauto) _).2
  have hwf : ∀ {o : Bin}, o = .ratan2 ∨ o = .datan2f ∨ o = .datan2g → (Form.bin o f g).WF := fun h =>
    ⟨hf.wf, hg.wf, by rw [← hd]; exact (real_accept (by tauto) _).1⟩
  have hdef : ∀ k < max f.dim g.dim, cst f.dim (f.val (F p)) k ≠ 0 ∨ cst g.dim (g.val (F p)) k ≠ 0 := fun k hk => by
    rw [cst_of_lt _ (by omega), cst_of_lt _ (by omega)]
    exact (hs k (by omega)).elim (fun h => .inr h.ne') .inl
  let c : Vec := fun k => g.val (F p) k / (f.val (F p) k ^ 2 + g.val (F p) k ^ 2)
  let c' : Vec := fun k => -f.val (F p) k / (f.val (F p) k ^ 2 + g.val (F p) k ^ 2)
  have sc : Scale F p (.bin .datan2f f g) f.dim c := ⟨hwf (by tauto), ⟨hf.defined, hg.defined, hdef⟩, hdim (by tauto),
    fun k hk => by
      show cst g.dim _ k / (cst f.dim _ k ^ 2 + cst g.dim _ k ^ 2) = _
      rw [cst_of_lt _ hk, cst_of_lt _ (by omega)]⟩
  have sc' : Scale F p (.bin .datan2g f g) g.dim c' := ⟨hwf (by tauto), ⟨hf.defined, hg.defined, hdef⟩,
    (hdim (by tauto)).trans hd, fun k hk => by
      show -cst f.dim _ k / (cst f.dim _ k ^ 2 + cst g.dim _ k ^ 2) = _
      rw [cst_of_lt _ (by omega), cst_of_lt _ hk]⟩
  refine ⟨fun k => c k • f' k + c' k • g' k, hwf (by tauto), ⟨hf.defined, hg.defined, hdef⟩, ?_, ?_⟩
  · intro k hk
    rw [hdim (by tauto)] at hk
    have : (fun q => (Form.bin .ratan2 f g).val (F q) k) = fun q => Complex.arg ⟨g.val (F q) k, f.val (F q) k⟩ := by
      funext q
      show Complex.arg ⟨cst g.dim _ k, cst f.dim _ k⟩ = _
      rw [cst_of_lt _ hk, cst_of_lt _ (by omega)]
    rw [this]
    refine (hasFDerivAt_atan2 (hf.deriv k hk) (hg.deriv k (by omega)) (hs k hk)).congr_fderiv ?_
    rfl
  · intro η r h1 h2 h3 h4
    rw [hdim (by tauto)] at h3 ⊢
    unfold dRatan2 at h4
    rw [if_pos hd] at h4
    obtain ⟨s, hs, h4⟩ := bindOk h4
    obtain ⟨t, ht, h4⟩ := bindOk h4
    have := radd_res (hf.term hv sc h1 h2 h3 hs) (hg.term hv sc' h1 h2 (by omega) ht) h4
    refine ⟨this.1, this.2.1, this.2.2.1, ?_⟩
    rw [this.2.2.2, ← hd]
    simp only [ip, smul_add, sum_add_distrib]

end

end Verif.Cplx
