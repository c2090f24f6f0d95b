import Verif.Spec.ComplexLazy
import Verif.Props.Complex

/-!
# Complex lazy tensors: helper lemmas
-/

namespace Verif.Cplx

open Finset Spec

variable {env : Env} {f g r : Form} {n n' : Nat} {z w : Nat → ℂ} {s t t' : LT} {c : Bool}

/-- The formula `f` has the values `z`, complex or real. -/
def Val (env : Env) (f : Form) (c : Bool) (n : Nat) (z : Nat → ℂ) : Prop :=
  match c with
  | true => IsComplex env f n z
  | false => IsReal env f n (fun k => (z k).re) ∧ ∀ k < n, (z k).im = 0

/-- The tensor `t` has the values `z`, complex or real. -/
structure Rep (env : Env) (t : LT) (c : Bool) (n : Nat) (z : Nat → ℂ) : Prop where
  isC : t.isC = c
  ndim : t.ndim = if c then 2 * n else n
  pos : 0 < n
  val : ∀ f, t.formula.build = .ok f → Val env f c n z

theorem IsReal.congr {x y : Nat → ℝ} (h : IsReal env f n x) (hn : n = n') (hx : ∀ k < n', x k = y k) :
    IsReal env f n' y := by
  subst hn
  exact ⟨h.wf, h.defined, h.dim, fun k hk => (h.val k hk).trans (hx k hk)⟩

theorem Val.congr (h : Val env f c n z) (hn : n = n') (hz : ∀ k < n', z k = w k) : Val env f c n' w := by
  subst hn
  cases c with
  | true => exact IsComplex.congr h rfl hz
  | false => exact ⟨h.1.congr rfl fun k hk => by rw [hz k hk], fun k hk => by rw [← hz k hk]; exact h.2 k hk⟩

theorem Val.dim (h : Val env f c n z) : f.dim = if c then 2 * n else n := by
  cases c with
  | true => exact IsComplex.dim h
  | false => exact h.1.dim

theorem Rep.congr (h : Rep env t c n z) (hn : n = n') (hz : ∀ k < n', z k = w k) : Rep env t c n' w := by
  subst hn
  exact ⟨h.isC, h.ndim, h.pos, fun f hf => (h.val f hf).congr rfl hz⟩

/-- A number whose imaginary part is 0. -/
theorem eq_re {a : ℂ} (h : a.im = 0) : ((a.re : ℝ) : ℂ) = a := Complex.ext rfl (by simp [h])

/-! ## Real operations -/

theorem isReal_un {o : Un} {x : Nat → ℝ} {F : ℝ → ℝ} (hf : IsReal env f n x)
    (ho : o = .rneg ∨ o = .rsquare ∨ o = .rinv ∨ o = .rcos ∨ o = .rsin ∨ o = .rexp)
    (hdef : o = .rinv → ∀ k < n, x k ≠ 0)
    (hF : ∀ (x : Vec) k, unVal o n x k = F (x k)) (hr : mkUn o f = .ok r) : IsReal env r n fun k => F (x k) := by
  obtain ⟨rfl, ha⟩ := mkUn_ok hr
  have hd := hf.dim
  refine ⟨⟨hf.wf, ha, fun m h => by subst h; simp at ho⟩, ⟨hf.defined, ?_⟩, ?_, fun k hk => ?_⟩
  · rcases ho with rfl | rfl | rfl | rfl | rfl | rfl <;> try trivial
    intro k hk
    rw [hf.val k (by omega)]
    exact hdef rfl k (by omega)
  · rcases ho with rfl | rfl | rfl | rfl | rfl | rfl <;> exact hd
  · show unVal o f.dim (f.val env) k = _
    rw [hd, hF, hf.val k hk]

/-- The operation of `Bin` for an operator. -/
def Arith.bin : Arith → Bin
  | .add => .radd
  | .sub => .rsub
  | .mul => .rmul
  | .div => .rdiv

/-- The function on real numbers. -/
noncomputable def Arith.rfn : Arith → ℝ → ℝ → ℝ
  | .add, a, b => a + b
  | .sub, a, b => a - b
  | .mul, a, b => a * b
  | .div, a, b => a / b

theorem Arith.fn_ofReal (o : Arith) (a b : ℝ) : o.fn a b = (o.rfn a b : ℝ) := by
  cases o <;> simp [Arith.fn, Arith.rfn]

theorem isReal_bin (o : Arith) {x y : Nat → ℝ} (hf : IsReal env f n x) (hg : IsReal env g n' y)
    (hdef : o = .div → ∀ k < n', y k ≠ 0) (hr : mkBin o.bin f g = .ok r) :
    IsReal env r (max n n') fun k => o.rfn (spread n x k) (spread n' y k) := by
  obtain ⟨rfl, ha⟩ := mkBin_ok hr
  have hd := hf.dim
  have hd' := hg.dim
  have hp := hf.wf.pos
  have hp' := hg.wf.pos
  have hor : n = n' ∨ n = 1 ∨ n' = 1 := by
    have : (f.dim == g.dim || min f.dim g.dim == 1) = true := by cases o <;> exact ha
    rw [Bool.or_eq_true, beq_iff_eq, beq_iff_eq] at this
    omega
  have hx : ∀ k < max n n', cst f.dim (f.val env) k = spread n x k := fun k hk => by
    unfold cst spread
    rw [hd]
    split
    · exact hf.val 0 (by omega)
    · exact hf.val k (by omega)
  have hy : ∀ k < max n n', cst g.dim (g.val env) k = spread n' y k := fun k hk => by
    unfold cst spread
    rw [hd']
    split
    · exact hg.val 0 (by omega)
    · exact hg.val k (by omega)
  refine ⟨⟨hf.wf, hg.wf, ha⟩, ⟨hf.defined, hg.defined, ?_⟩, ?_, fun k hk => ?_⟩
  · cases o <;> try trivial
    intro k hk
    rw [hd, hd'] at hk
    rw [hy k hk]
    unfold spread
    split
    · exact hdef rfl 0 (by omega)
    · exact hdef rfl k (by omega)
  · show o.bin.dim f.dim g.dim = _
    rw [hd, hd']
    cases o <;> rfl
  · show binVal o.bin f.dim g.dim (f.val env) (g.val env) k = _
    rw [← hx k hk, ← hy k hk]
    cases o <;> rfl

theorem spread_re (n : Nat) (z : Nat → ℂ) (k : Nat) : (spread n z k).re = spread n (fun k => (z k).re) k := by
  unfold spread; split <;> rfl

theorem spread_im (hz : ∀ k < n, (z k).im = 0) {k : Nat} (hk : n = 1 ∨ k < n) : (spread n z k).im = 0 := by
  unfold spread
  split
  · exact hz 0 (by omega)
  · exact hz k (by omega)

theorem val_bin (o : Arith) (hf : Val env f false n z) (hg : Val env g false n' w)
    (hdef : o = .div → ∀ k < n', w k ≠ 0) (hr : mkBin o.bin f g = .ok r) :
    Val env r false (max n n') fun k => o.fn (spread n z k) (spread n' w k) := by
  have h := isReal_bin o hf.1 hg.1 (fun ho k hk h0 => hdef ho k hk (Complex.ext h0 (hg.2 k hk))) hr
  have hd := hf.1.dim
  have hd' := hg.1.dim
  have hp := hf.1.wf.pos
  have hp' := hg.1.wf.pos
  have hor : n = n' ∨ n = 1 ∨ n' = 1 := by
    obtain ⟨rfl, ha⟩ := mkBin_ok hr
    have : (f.dim == g.dim || min f.dim g.dim == 1) = true := by cases o <;> exact ha
    rw [Bool.or_eq_true, beq_iff_eq, beq_iff_eq] at this
    omega
  have key : ∀ k < max n n', o.fn (spread n z k) (spread n' w k) =
      (o.rfn (spread n (fun k => (z k).re) k) (spread n' (fun k => (w k).re) k) : ℝ) := fun k hk => by
    have h1 : (spread n z k).im = 0 := spread_im hf.2 (by omega)
    have h2 : (spread n' w k).im = 0 := spread_im hg.2 (by omega)
    rw [← Arith.fn_ofReal, ← spread_re, ← spread_re, eq_re h1, eq_re h2]
  exact ⟨h.congr rfl fun k hk => (congrArg Complex.re (key k hk)).symm, fun k hk => congrArg Complex.im (key k hk)⟩

theorem val_neg (hf : Val env f c n z) (hr : mkUn .rneg f = .ok r) : Val env r c n fun k => -z k := by
  cases c with
  | false =>
    have := isReal_un (F := fun x => -x) hf.1 (by simp) (by simp) (fun x k => rfl) hr
    exact ⟨this, fun k hk => by simp [hf.2 k hk]⟩
  | true =>
    have h : IsComplex env f n z := hf
    obtain ⟨rfl, ha⟩ := mkUn_ok hr
    refine ⟨⟨h.wf, ha, fun m h => by cases h⟩, ⟨h.defined, trivial⟩, h.dim, fun k hk => ?_⟩
    have := h.val k hk
    rw [← this]
    apply Complex.ext <;> rfl

/-! ## Construction of tensors -/

theorem build_un {o : Op1} {a : Src} {r : Form} (h : (Src.un o a).build = .ok r) :
    ∃ f, a.build = .ok f ∧ (match o with
    | .minus => mkUn .rneg f
    | .square => mkUn .rsquare f
    | .inv => mkUn .rinv f
    | .cos => mkUn .rcos f
    | .sin => mkUn .rsin f
    | .exp => mkUn .rexp f
    | .cReal => mkUn .real f
    | .cImag => mkUn .imag f
    | .cAngle => angle f
    | .conj => mkUn .conj f
    | .cSum => mkUn .sum f
    | .cAbs => abs f
    | .cExp => mkUn .exp f
    | .real2complex => mkUn .ofReal f
    | .imag2complex => mkUn .ofImag f
    | .exp1j => mkUn .exp1j f) = .ok r := by
  rw [Src.build] at h
  obtain ⟨f, hf, hr⟩ := bindOk h
  exact ⟨f, hf, by cases o <;> exact hr⟩

theorem build_bin {o : Op2} {a b : Src} {r : Form} (h : (Src.bin o a b).build = .ok r) :
    ∃ f g, a.build = .ok f ∧ b.build = .ok g ∧ (match o with
    | .plus => mkBin .radd f g
    | .minus => mkBin .rsub f g
    | .times => mkBin .rmul f g
    | .over => mkBin .rdiv f g
    | .cRealScal => realScal f g
    | .cMult => mkBin .mul f g
    | .cAdd => mkBin .add f g
    | .cSubtract => mkBin .sub f g
    | .cDivide => divide f g) = .ok r := by
  rw [Src.build] at h
  obtain ⟨f, hf, h⟩ := bindOk h
  obtain ⟨g, hg, h⟩ := bindOk h
  exact ⟨f, g, hf, hg, by cases o <;> exact h⟩

theorem Rep.real2complex (h : Rep env s false n z) (ht : s.real2complex = .ok t) : Rep env t true n z := by
  unfold LT.real2complex at ht
  rw [h.isC] at ht
  simp only [Bool.false_eq_true, if_false, Except.ok.injEq] at ht
  subst ht
  refine ⟨rfl, ?_, h.pos, fun r hr => ?_⟩
  · have := h.ndim
    simp only [Bool.false_eq_true, if_false] at this
    show 2 * s.ndim = _
    rw [this]; rfl
  · obtain ⟨f, hf, hr⟩ := build_un hr
    have hv := h.val f hf
    exact (C36_real2complex hv.1 hr).congr rfl fun k hk => eq_re (hv.2 k hk)

theorem Rep.minus (h : Rep env s c n z) : Rep env (s.unary' .minus) c n fun k => -z k :=
  ⟨h.isC, h.ndim, h.pos, fun r hr => by
    obtain ⟨f, hf, hr⟩ := build_un hr
    exact val_neg (h.val f hf) hr⟩

/-- The result of `binary`. -/
theorem binary_ok {o : Op2} {check rv : Bool} (h : s.binary t o check rv c = .ok t') :
    t' = ⟨if rv then .bin o t.formula s.formula else .bin o s.formula t.formula, max s.ndim t.ndim, c⟩ := by
  unfold LT.binary at h
  cases rv <;> split_ifs at h <;> first | exact (Except.ok.inj h).symm | contradiction

theorem build_real (o : Arith) {a b : Src} (h : (Src.bin o.real a b).build = .ok r) :
    ∃ f g, a.build = .ok f ∧ b.build = .ok g ∧ mkBin o.bin f g = .ok r := by
  obtain ⟨f, g, hf, hg, h⟩ := build_bin h
  exact ⟨f, g, hf, hg, by cases o <;> exact h⟩

/-- Two real tensors. -/
theorem Rep.opReal (o : Arith) (hs : Rep env s false n z) (ht : Rep env t false n' w)
    (hdef : o = .div → ∀ k < n', w k ≠ 0) {check : Bool} (h : s.binary t o.real check false false = .ok t') :
    Rep env t' false (max n n') fun k => o.fn (spread n z k) (spread n' w k) := by
  rw [binary_ok h]
  have h1 := hs.ndim
  have h2 := ht.ndim
  refine ⟨rfl, by simp only [h1, h2]; simp, by have := hs.pos; omega, fun r hr => ?_⟩
  simp only [Bool.false_eq_true, if_false] at hr
  obtain ⟨f, g, hf, hg, hr⟩ := build_real o hr
  exact val_bin o (hs.val f hf) (ht.val g hg) hdef hr

/-- Same in reverse order. -/
theorem Rep.opRealRev (o : Arith) (hs : Rep env s false n z) (ht : Rep env t false n' w)
    (hdef : o = .div → ∀ k < n, z k ≠ 0) {check : Bool} (h : s.binary t o.real check true false = .ok t') :
    Rep env t' false (max n n') fun k => o.fn (spread n' w k) (spread n z k) := by
  rw [binary_ok h]
  have h1 := hs.ndim
  have h2 := ht.ndim
  refine ⟨rfl, by simp only [h1, h2]; simp, by have := hs.pos; omega, fun r hr => ?_⟩
  simp only [if_true] at hr
  obtain ⟨f, g, hf, hg, hr⟩ := build_real o hr
  exact (val_bin o (ht.val f hf) (hs.val g hg) hdef hr).congr (max_comm _ _) fun _ _ => rfl

theorem max_two (n n' : Nat) : max (2 * n) (2 * n') = 2 * max n n' := by omega

/-- The operation on complex tensors. -/
def Arith.cop : Arith → Op2
  | .add => .cAdd
  | .sub => .cSubtract
  | .mul => .cMult
  | .div => .cDivide

/-- Two complex tensors. -/
theorem Rep.opComplex (o : Arith) (hs : Rep env s true n z) (ht : Rep env t true n' w)
    (hdef : o = .div → ∀ k < n', w k ≠ 0) {check : Bool} (h : s.binary t o.cop check false true = .ok t') :
    Rep env t' true (max n n') fun k => o.fn (spread n z k) (spread n' w k) := by
  rw [binary_ok h]
  have h1 := hs.ndim
  have h2 := ht.ndim
  refine ⟨rfl, by simp only [h1, h2, if_true]; exact max_two _ _, by have := hs.pos; omega, fun r hr => ?_⟩
  simp only [Bool.false_eq_true, if_false] at hr
  obtain ⟨f, g, hf, hg, hr⟩ := build_bin hr
  have hf : IsComplex env f n z := hs.val f hf
  have hg : IsComplex env g n' w := ht.val g hg
  cases o with
  | add => exact C36_add hf hg hr
  | sub => exact C36_sub hf hg hr
  | mul => exact C36_mult hf hg hr
  | div => exact C36_divide hf hg (hdef rfl) hr

theorem spread_one (k : Nat) : spread 1 z k = z 0 := if_pos rfl

theorem spread_self {k : Nat} (hk : k < n) : spread n z k = z k := by
  unfold spread
  split
  · rw [show k = 0 by omega]
  · rfl

/-- A real number and a complex tensor, in both orders. -/
theorem Rep.realScal (hs : Rep env s false 1 z) (ht : Rep env t true n w) {check rv : Bool}
    (h : s.binary t .cRealScal check rv true = .ok t') : Rep env t' true n fun k => z 0 * w k := by
  rw [binary_ok h]
  have h1 := hs.ndim
  have h2 := ht.ndim
  have hp := ht.pos
  refine ⟨rfl, ?_, hp, fun r hr => ?_⟩
  · simp only [h1, h2]
    simp
    omega
  · have : ∃ f g, s.formula.build = .ok f ∧ t.formula.build = .ok g ∧
        (Cplx.realScal f g = .ok r ∨ Cplx.realScal g f = .ok r) := by
      cases rv with
      | true =>
        obtain ⟨f, g, hf, hg, hr⟩ := build_bin hr
        exact ⟨g, f, hg, hf, Or.inr hr⟩
      | false =>
        obtain ⟨f, g, hf, hg, hr⟩ := build_bin hr
        exact ⟨f, g, hf, hg, Or.inl hr⟩
    obtain ⟨f, g, hf, hg, hr⟩ := this
    have hv := hs.val f hf
    have hw : IsComplex env g n w := ht.val g hg
    have := C36_realScal (a := (z 0).re) (hv.1.congr rfl fun k hk => by rw [show k = 0 by omega]) hw hr
    refine this.congr rfl fun k hk => ?_
    rw [eq_re (hv.2 0 (by omega))]

/-- `mulop` of a complex tensor and a real one. -/
theorem Rep.mulRealC (hs : Rep env s true n z) (ht : Rep env t false n' w)
    (h : s.mulopC t false = .ok t') :
    Rep env t' true (max n n') fun k => spread n z k * spread n' w k := by
  have h2 := ht.ndim
  simp only [Bool.false_eq_true, if_false] at h2
  have hp := hs.pos
  have hp' := ht.pos
  unfold LT.mulopC at h
  by_cases h1 : n' = 1
  · subst h1
    rw [if_pos h2] at h
    refine (Rep.realScal ht hs h).congr (by omega) fun k hk => ?_
    rw [spread_one, spread_self (by omega), mul_comm]
  · rw [if_neg (by omega), ht.isC] at h
    simp only [Bool.not_false, if_true] at h
    obtain ⟨r, hr, h⟩ := bindOk h
    have hr := ht.real2complex hr
    have hn := hr.ndim
    simp only [if_true] at hn
    rw [if_neg (by omega)] at h
    exact Rep.opComplex .mul hs hr (by simp) h

/-- `addop`, `subop`, `mulop`, `divop` of a complex tensor and a tensor. -/
theorem Rep.op (o : Arith) (hs : Rep env s true n z) (ht : Rep env t c n' w)
    (hdef : o = .div → ∀ k < n', w k ≠ 0) (h : LT.op o s t false = .ok t') :
    Rep env t' true (max n n') fun k => o.fn (spread n z k) (spread n' w k) := by
  unfold LT.op at h
  rw [hs.isC] at h
  simp only [if_true] at h
  have key : ∀ {o' : Op2}, o' = o.cop → s.opC o' t false = .ok t' →
      Rep env t' true (max n n') fun k => o.fn (spread n z k) (spread n' w k) := by
    intro o' ho h
    subst ho
    unfold LT.opC at h
    rw [ht.isC] at h
    cases c with
    | true =>
      simp only [Bool.not_true, Bool.false_eq_true, if_false] at h
      exact Rep.opComplex o hs ht hdef h
    | false =>
      simp only [Bool.not_false, if_true] at h
      obtain ⟨r, hr, h⟩ := bindOk h
      exact Rep.opComplex o hs (ht.real2complex hr) hdef h
  cases o with
  | add => exact key rfl h
  | sub => exact key rfl h
  | div => exact key rfl h
  | mul =>
    cases c with
    | false => exact Rep.mulRealC hs ht h
    | true =>
      have h2 := ht.ndim
      simp only [if_true] at h2
      simp only [LT.mulopC] at h
      rw [if_neg (by omega), ht.isC] at h
      simp only [Bool.not_true, Bool.false_eq_true, if_false] at h
      exact Rep.opComplex .mul hs ht hdef h

theorem Arith.mul_comm' (a b : ℂ) : Arith.fn .mul a b = Arith.fn .mul b a := mul_comm a b

/-- Operators on two tensors. -/
theorem Rep.arith (o : Arith) {c' : Bool} (hs : Rep env s c n z) (ht : Rep env t c' n' w)
    (hdef : o = .div → ∀ k < n', w k ≠ 0) (h : LT.arith o s t = .ok t') :
    Rep env t' (c || c') (max n n') fun k => o.fn (spread n z k) (spread n' w k) := by
  unfold LT.arith at h
  rw [hs.isC, ht.isC] at h
  cases c with
  | true =>
    simp only [Bool.not_true, Bool.and_false, Bool.false_eq_true, if_false] at h
    exact Rep.op o hs ht hdef h
  | false =>
    cases c' with
    | false =>
      simp only [Bool.false_and, Bool.false_eq_true, if_false] at h
      unfold LT.op at h
      rw [hs.isC, ht.isC] at h
      exact Rep.opReal o hs ht hdef h
    | true =>
      simp only [Bool.not_false, Bool.and_true, if_true] at h
      cases o with
      | mul =>
        exact (Rep.op .mul ht hs (by simp) h).congr (max_comm _ _) fun k _ => Arith.mul_comm' _ _
      | add =>
        obtain ⟨r, hr, h⟩ := bindOk h
        exact Rep.op .add (hs.real2complex hr) ht hdef h
      | sub =>
        obtain ⟨r, hr, h⟩ := bindOk h
        exact Rep.op .sub (hs.real2complex hr) ht hdef h
      | div =>
        obtain ⟨r, hr, h⟩ := bindOk h
        exact Rep.op .div (hs.real2complex hr) ht hdef h

/-- The tensor of a number. -/
theorem Number.rep {x : Number} {key : Int} (h : x.Held env key) : Rep env (x.lt key) x.isC 1 fun _ => x.val := by
  obtain ⟨h0, h1⟩ := h
  refine ⟨rfl, ?_, by omega, fun f hf => ?_⟩
  · cases hx : x.isC <;> simp [Number.lt, hx]
  · simp only [Number.lt, Src.build, Except.ok.injEq] at hf
    subst hf
    cases hx : x.isC with
    | true =>
      rw [hx] at h1
      simp only [if_true] at h1 ⊢
      exact (C36_var (env := env) (n := 1) key 2 (by omega)).congr rfl fun k hk => by
        rw [show k = 0 by omega]
        exact Complex.ext h0 h1
    | false =>
      rw [hx] at h1
      exact ⟨(C36_varReal (env := env) (n := 1) key 2 (by omega)).congr rfl fun k hk => by
        rw [show k = 0 by omega]
        exact h0, fun k hk => h1⟩

/-- Operators on a tensor and a number. -/
theorem Rep.arithNum (o : Arith) {x : Number} {key : Int} (hs : Rep env s c n z) (hx : x.Held env key)
    (hm : ¬Mixed o x c) (hdef : o = .div → x.val ≠ 0) (h : s.arithNum o x key = .ok t') :
    Rep env t' (c || x.isC) n fun k => o.fn (z k) x.val := by
  have hp := hs.pos
  have hn := Number.rep hx
  -- the real operator
  have real : s.opNum o (x.lt key) false = .ok t' → ¬(c = false ∧ x.isC = true) →
      Rep env t' (c || x.isC) n fun k => o.fn (z k) x.val := by
    intro h hc
    unfold LT.opNum at h
    rw [hs.isC, hn.isC] at h
    cases hcc : c with
    | true => rw [hcc] at h; cases h
    | false =>
      cases hxx : x.isC with
      | true => exact absurd ⟨hcc, hxx⟩ hc
      | false =>
        rw [hcc, hxx] at h
        subst hcc
        rw [hxx] at hn
        exact (Rep.opReal o hs hn (fun ho k hk => hdef ho) h).congr (by omega) fun k hk => by
          rw [spread_one, spread_self (by omega)]
  have same : ∀ {t : LT} {y : Nat → ℂ}, ¬(c = false ∧ x.isC = true) → Rep env t c n y → (∀ k < n, y k = o.fn (z k) x.val) →
      Rep env t (c || x.isC) n fun k => o.fn (z k) x.val := by
    intro t y hc hs hy
    have : (c || x.isC) = c := by cases c <;> cases hx : x.isC <;> simp_all
    rw [this]
    exact hs.congr rfl hy
  by_cases hmix : c = false ∧ x.isC = true
  · obtain ⟨hc, hxx⟩ := hmix
    subst hc
    have : o = .mul ∧ x.val ≠ 0 ∧ x.val ≠ 1 ∧ x.val ≠ -1 := by
      by_contra hcon
      exact hm ⟨hxx, rfl, hcon⟩
    obtain ⟨rfl, h0, h1, h2⟩ := this
    simp only [LT.arithNum, if_neg h0, if_neg h1, if_neg h2] at h
    rw [hxx, hs.isC] at h
    rw [hxx] at hn ⊢
    refine (Rep.op .mul hn hs (by simp) h).congr (by omega) fun k hk => ?_
    rw [spread_one, spread_self (by omega), Arith.mul_comm']
  · cases o with
    | add =>
      simp only [LT.arithNum] at h
      split_ifs at h with h0
      · obtain rfl := Except.ok.inj h
        exact same hmix hs fun k hk => by simp [Arith.fn, h0]
      · exact real h hmix
    | sub =>
      simp only [LT.arithNum] at h
      split_ifs at h with h0
      · obtain rfl := Except.ok.inj h
        exact same hmix hs fun k hk => by simp [Arith.fn, h0]
      · exact real h hmix
    | mul =>
      have hb : ¬((x.isC && !c) = true) := fun hb => hmix (by
        cases c <;> cases hx : x.isC <;> simp_all)
      simp only [LT.arithNum, hs.isC] at h
      split_ifs at h with h0 h1 h2
      · obtain rfl := Except.ok.inj h
        exact same hmix hs fun k hk => by simp [Arith.fn, h1]
      · obtain rfl := Except.ok.inj h
        exact same hmix hs.minus fun k hk => by simp [Arith.fn, h2]
      · exact real h hmix
    | div =>
      simp only [LT.arithNum] at h
      split_ifs at h with h0
      · obtain rfl := Except.ok.inj h
        exact same hmix hs fun k hk => by simp [Arith.fn, h0]
      · exact real h hmix

/-- Operators on a number and a tensor. -/
theorem Rep.numArith (o : Arith) {x : Number} {key : Int} (hs : Rep env s c n z) (hx : x.Held env key)
    (hm : ¬Mixed o x c) (hinv : ¬(o = .div ∧ x.val = 1 ∧ c = true))
    (hdef : o = .div → ∀ k < n, z k ≠ 0) (h : LT.numArith o x key s = .ok t') :
    Rep env t' (x.isC || c) n fun k => o.fn x.val (z k) := by
  have hp := hs.pos
  have hn := Number.rep hx
  rw [Bool.or_comm]
  have real : s.opNum o (x.lt key) true = .ok t' → ¬(c = false ∧ x.isC = true) →
      Rep env t' (c || x.isC) n fun k => o.fn x.val (z k) := by
    intro h hc
    unfold LT.opNum at h
    rw [hs.isC, hn.isC] at h
    cases hcc : c with
    | true => rw [hcc] at h; cases h
    | false =>
      cases hxx : x.isC with
      | true => exact absurd ⟨hcc, hxx⟩ hc
      | false =>
        rw [hcc, hxx] at h
        subst hcc
        rw [hxx] at hn
        exact (Rep.opRealRev o hs hn hdef h).congr (by omega) fun k hk => by
          rw [spread_one, spread_self (by omega)]
  have same : ∀ {t : LT} {y : Nat → ℂ}, ¬(c = false ∧ x.isC = true) → Rep env t c n y → (∀ k < n, y k = o.fn x.val (z k)) →
      Rep env t (c || x.isC) n fun k => o.fn x.val (z k) := by
    intro t y hc hs hy
    have : (c || x.isC) = c := by cases c <;> cases hx : x.isC <;> simp_all
    rw [this]
    exact hs.congr rfl hy
  by_cases hmix : c = false ∧ x.isC = true
  · obtain ⟨hc, hxx⟩ := hmix
    subst hc
    have : o = .mul ∧ x.val ≠ 0 ∧ x.val ≠ 1 ∧ x.val ≠ -1 := by
      by_contra hcon
      exact hm ⟨hxx, rfl, hcon⟩
    obtain ⟨rfl, h0, h1, h2⟩ := this
    simp only [LT.numArith, if_neg h0, if_neg h1, if_neg h2] at h
    rw [hxx, hs.isC] at h
    simp only [Bool.not_false, Bool.and_true, if_true] at h
    obtain ⟨r, hr, h⟩ := bindOk h
    rw [hxx] at hn ⊢
    refine (Rep.op .mul (hs.real2complex hr) hn (by simp) h).congr (by omega) fun k hk => ?_
    rw [spread_one, spread_self (by omega), Arith.mul_comm']
  · cases o with
    | add =>
      simp only [LT.numArith] at h
      split_ifs at h with h0
      · obtain rfl := Except.ok.inj h
        exact same hmix hs fun k hk => by simp [Arith.fn, h0]
      · exact real h hmix
    | sub =>
      simp only [LT.numArith] at h
      split_ifs at h with h0
      · obtain rfl := Except.ok.inj h
        exact same hmix hs.minus fun k hk => by simp [Arith.fn, h0]
      · exact real h hmix
    | mul =>
      have hb : ¬((x.isC && !c) = true) := fun hb => hmix (by
        cases c <;> cases hx : x.isC <;> simp_all)
      simp only [LT.numArith, hs.isC] at h
      split_ifs at h with h0 h1 h2
      · obtain rfl := Except.ok.inj h
        exact same hmix hs fun k hk => by simp [Arith.fn, h1]
      · obtain rfl := Except.ok.inj h
        exact same hmix hs.minus fun k hk => by simp [Arith.fn, h2]
      · exact real h hmix
    | div =>
      simp only [LT.numArith] at h
      split_ifs at h with h0 h1
      · obtain rfl := Except.ok.inj h
        cases hcc : c with
        | true => exact absurd ⟨rfl, h1, hcc⟩ hinv
        | false =>
          subst hcc
          refine same hmix (y := fun k => 1 / z k) ⟨hs.isC, hs.ndim, hs.pos, fun r hr => ?_⟩
            fun k hk => by simp [Arith.fn, h1]
          obtain ⟨f, hf, hr⟩ := build_un hr
          have hv := hs.val f hf
          have := isReal_un (F := fun x => 1 / x) hv.1 (by simp)
            (fun _ k hk h0 => hdef rfl k hk (Complex.ext h0 (hv.2 k hk))) (fun x k => rfl) hr
          have e : ∀ k < n, 1 / z k = ((1 / (z k).re : ℝ) : ℂ) := fun k hk => by
            conv_lhs => rw [← eq_re (hv.2 k hk)]
            push_cast
            rfl
          exact ⟨this.congr rfl fun k hk => (congrArg Complex.re (e k hk)).symm,
            fun k hk => congrArg Complex.im (e k hk)⟩
      · exact real h hmix

/-- Methods. -/
theorem Rep.meth (m : Meth) (hs : Rep env s c n z) (hfine : c = true → m ≠ .square ∧ m ≠ .cos ∧ m ≠ .sin)
    (hdef : m = .angle → ∀ k < n, z k ≠ 0) (h : s.meth m = .ok t') :
    Rep env t' (m.isC c) (if m = .sum then 1 else n) (m.fn n z) := by
  have hn := hs.ndim
  have hp := hs.pos
  unfold LT.meth at h
  rw [hs.isC] at h
  cases m with
  | neg =>
    obtain rfl := Except.ok.inj h
    exact hs.minus
  | square =>
    obtain rfl := Except.ok.inj h
    cases c with
    | true => exact absurd rfl (hfine rfl).1
    | false =>
      refine ⟨hs.isC, hn, hp, fun r hr => ?_⟩
      obtain ⟨f, hf, hr⟩ := build_un hr
      have hv := hs.val f hf
      have := isReal_un (F := fun x => x ^ 2) hv.1 (by simp) (by simp) (fun x k => rfl) hr
      have e : ∀ k < n, z k ^ 2 = (((z k).re ^ 2 : ℝ) : ℂ) := fun k hk => by
        conv_lhs => rw [← eq_re (hv.2 k hk)]
        push_cast
        rfl
      exact ⟨this.congr rfl fun k hk => by simp only [Meth.fn]; rw [e k hk]; rfl,
        fun k hk => by simp only [Meth.fn]; rw [e k hk]; rfl⟩
  | cos =>
    obtain rfl := Except.ok.inj h
    cases c with
    | true => exact absurd rfl (hfine rfl).2.1
    | false =>
      refine ⟨hs.isC, hn, hp, fun r hr => ?_⟩
      obtain ⟨f, hf, hr⟩ := build_un hr
      have hv := hs.val f hf
      have := isReal_un (F := Real.cos) hv.1 (by simp) (by simp) (fun x k => rfl) hr
      have e : ∀ k < n, Complex.cos (z k) = ((Real.cos (z k).re : ℝ) : ℂ) := fun k hk => by
        conv_lhs => rw [← eq_re (hv.2 k hk)]
        push_cast
        rfl
      exact ⟨this.congr rfl fun k hk => by simp only [Meth.fn]; rw [e k hk]; rfl,
        fun k hk => by simp only [Meth.fn]; rw [e k hk]; rfl⟩
  | sin =>
    obtain rfl := Except.ok.inj h
    cases c with
    | true => exact absurd rfl (hfine rfl).2.2
    | false =>
      refine ⟨hs.isC, hn, hp, fun r hr => ?_⟩
      obtain ⟨f, hf, hr⟩ := build_un hr
      have hv := hs.val f hf
      have := isReal_un (F := Real.sin) hv.1 (by simp) (by simp) (fun x k => rfl) hr
      have e : ∀ k < n, Complex.sin (z k) = ((Real.sin (z k).re : ℝ) : ℂ) := fun k hk => by
        conv_lhs => rw [← eq_re (hv.2 k hk)]
        push_cast
        rfl
      exact ⟨this.congr rfl fun k hk => by simp only [Meth.fn]; rw [e k hk]; rfl,
        fun k hk => by simp only [Meth.fn]; rw [e k hk]; rfl⟩
  | exp =>
    obtain rfl := Except.ok.inj h
    cases c with
    | true =>
      refine ⟨rfl, hn, hp, fun r hr => ?_⟩
      obtain ⟨f, hf, hr⟩ := build_un hr
      exact C36_exp (hs.val f hf) hr
    | false =>
      refine ⟨hs.isC, hn, hp, fun r hr => ?_⟩
      obtain ⟨f, hf, hr⟩ := build_un hr
      have hv := hs.val f hf
      have := isReal_un (F := Real.exp) hv.1 (by simp) (by simp) (fun x k => rfl) hr
      have e : ∀ k < n, Complex.exp (z k) = ((Real.exp (z k).re : ℝ) : ℂ) := fun k hk => by
        conv_lhs => rw [← eq_re (hv.2 k hk)]
        push_cast
        rfl
      exact ⟨this.congr rfl fun k hk => by simp only [Meth.fn]; rw [e k hk]; rfl,
        fun k hk => by simp only [Meth.fn]; rw [e k hk]; rfl⟩
  | abs =>
    cases c with
    | false => cases h
    | true =>
      obtain rfl := Except.ok.inj h
      simp only [if_true] at hn
      refine ⟨rfl, by show s.ndim / 2 = n; omega, hp, fun r hr => ?_⟩
      obtain ⟨f, hf, hr⟩ := build_un hr
      exact ⟨C36_abs (hs.val f hf) hr, fun k hk => rfl⟩
  | real =>
    cases c with
    | false => cases h
    | true =>
      obtain rfl := Except.ok.inj h
      simp only [if_true] at hn
      refine ⟨rfl, by show s.ndim / 2 = n; omega, hp, fun r hr => ?_⟩
      obtain ⟨f, hf, hr⟩ := build_un hr
      exact ⟨C36_realPart (n := n) (z := z) (hs.val f hf) hr, fun k hk => rfl⟩
  | imag =>
    cases c with
    | false => cases h
    | true =>
      obtain rfl := Except.ok.inj h
      simp only [if_true] at hn
      refine ⟨rfl, by show s.ndim / 2 = n; omega, hp, fun r hr => ?_⟩
      obtain ⟨f, hf, hr⟩ := build_un hr
      exact ⟨C36_imagPart (n := n) (z := z) (hs.val f hf) hr, fun k hk => rfl⟩
  | angle =>
    cases c with
    | false => cases h
    | true =>
      obtain rfl := Except.ok.inj h
      simp only [if_true] at hn
      refine ⟨rfl, by show s.ndim / 2 = n; omega, hp, fun r hr => ?_⟩
      obtain ⟨f, hf, hr⟩ := build_un hr
      exact ⟨C36_angle (hs.val f hf) (hdef rfl) hr, fun k hk => rfl⟩
  | conj =>
    cases c with
    | false => cases h
    | true =>
      obtain rfl := Except.ok.inj h
      refine ⟨rfl, hn, hp, fun r hr => ?_⟩
      obtain ⟨f, hf, hr⟩ := build_un hr
      exact C36_conj (hs.val f hf) hr
  | real2complex =>
    cases c with
    | true =>
      unfold LT.real2complex at h
      rw [hs.isC] at h
      cases h
    | false => exact hs.real2complex h
  | imag2complex =>
    cases c with
    | true => cases h
    | false =>
      obtain rfl := Except.ok.inj h
      simp only [Bool.false_eq_true, if_false] at hn
      refine ⟨rfl, by show 2 * s.ndim = 2 * n; omega, hp, fun r hr => ?_⟩
      obtain ⟨f, hf, hr⟩ := build_un hr
      have hv := hs.val f hf
      exact (C36_imag2complex hv.1 hr).congr rfl fun k hk => by rw [eq_re (hv.2 k hk)]; rfl
  | exp1j =>
    cases c with
    | true => cases h
    | false =>
      obtain rfl := Except.ok.inj h
      simp only [Bool.false_eq_true, if_false] at hn
      refine ⟨rfl, by show 2 * s.ndim = 2 * n; omega, hp, fun r hr => ?_⟩
      obtain ⟨f, hf, hr⟩ := build_un hr
      have hv := hs.val f hf
      exact (C36_exp1j hv.1 hr).congr rfl fun k hk => by rw [eq_re (hv.2 k hk)]; rfl
  | sum =>
    cases c with
    | false => cases h
    | true =>
      obtain rfl := Except.ok.inj h
      refine ⟨rfl, rfl, Nat.one_pos, fun r hr => ?_⟩
      obtain ⟨f, hf, hr⟩ := build_un hr
      exact C36_sum (hs.val f hf) hr

/-- Programs. -/
theorem Prog.rep {p : Prog} (hfine : p.Fine) (hheld : p.Held env) (hdef : p.Def env) {t : LT} (h : p.lt = .ok t) :
    Rep env t p.isC p.len (p.val env) := by
  induction p generalizing t with
  | arr pos n cat isC =>
    obtain rfl := Except.ok.inj h
    refine ⟨rfl, rfl, hfine, fun f hf => ?_⟩
    simp only [Src.build, Except.ok.injEq] at hf
    subst hf
    cases isC with
    | true => exact C36_var pos cat hfine
    | false => exact ⟨C36_varReal pos cat hfine, fun k hk => rfl⟩
  | meth m p ih =>
    rw [Prog.lt] at h
    obtain ⟨s, hs, h⟩ := bindOk h
    have := (ih hfine.1 hheld hdef.1 hs).meth m hfine.2 hdef.2 h
    cases m <;> exact this
  | bin o p q ihp ihq =>
    rw [Prog.lt] at h
    obtain ⟨s, hs, h⟩ := bindOk h
    obtain ⟨s', hs', h⟩ := bindOk h
    exact (ihp hfine.1 hheld.1 hdef.1 hs).arith o (ihq hfine.2 hheld.2 hdef.2.1 hs') hdef.2.2 h
  | binNum o p x key ih =>
    rw [Prog.lt] at h
    obtain ⟨s, hs, h⟩ := bindOk h
    exact (ih hfine.1 hheld.1 hdef.1 hs).arithNum o hheld.2 hfine.2 hdef.2 h
  | numBin o x key p ih =>
    rw [Prog.lt] at h
    obtain ⟨s, hs, h⟩ := bindOk h
    exact (ih hfine.1 hheld.1 hdef.1 hs).numArith o hheld.2 hfine.2.1 hfine.2.2 hdef.2 h

end Verif.Cplx
