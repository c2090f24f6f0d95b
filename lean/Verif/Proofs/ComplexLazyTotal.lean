import Verif.Proofs.ComplexLazy
import Verif.Proofs.FormulaInputs

/-!
# Complex lazy tensors: programs that are accepted, and calls
-/

namespace Verif.Cplx

open Finset Spec

variable {f g : Form} {n n' : Nat} {s t : LT} {c c' : Bool}

/-- The tensor `t` announces `n` numbers and its formula can be built. -/
structure Fits (t : LT) (c : Bool) (n : Nat) : Prop where
  isC : t.isC = c
  ndim : t.ndim = if c then 2 * n else n
  pos : 0 < n
  built : ∃ f, t.formula.build = .ok f ∧ f.dim = if c then 2 * n else n

theorem accept_two {o : Bin} (ho : o = .add ∨ o = .sub ∨ o = .mul) (hf : f.dim = 2 * n) (hg : g.dim = 2 * n')
    (hn : 0 < n) (hn' : 0 < n') (h : n = n' ∨ n = 1 ∨ n' = 1) :
    mkBin o f g = .ok (.bin o f g) ∧ (Form.bin o f g).dim = 2 * max n n' := by
  constructor
  · apply mkBin_eq
    have : o.accept f.dim g.dim = (max f.dim g.dim % 2 == 0 && (f.dim == g.dim || min f.dim g.dim == 2)) := by
      rcases ho with rfl | rfl | rfl <;> rfl
    rw [this, Bool.and_eq_true, Bool.or_eq_true, beq_iff_eq, beq_iff_eq, beq_iff_eq]
    omega
  · have : (Form.bin o f g).dim = max f.dim g.dim := by rcases ho with rfl | rfl | rfl <;> rfl
    omega

theorem mkUn_even {o : Un} (ho : o = .conj ∨ o = .exp ∨ o = .real ∨ o = .imag ∨ o = .sqAbs ∨ o = .sum)
    (h : f.dim = 2 * n) : mkUn o f = .ok (.un o f) := by
  apply mkUn_eq
  rcases ho with rfl | rfl | rfl | rfl | rfl | rfl <;> exact beq_iff_eq.mpr (by omega)

theorem divide_two (hf : f.dim = 2 * n) (hg : g.dim = 2 * n') (hn : 0 < n) (hn' : 0 < n')
    (h : n = n' ∨ n = 1 ∨ n' = 1) : ∃ r, divide f g = .ok r ∧ r.dim = 2 * max n n' := by
  have hs : (Form.un .sqAbs g).dim = n' := by show g.dim / 2 = n'; omega
  have ha : (Form.un .ofReal (.un .rinv (.un .sqAbs g))).dim = 2 * n' := congrArg (2 * ·) hs
  have hc : (Form.un .conj g).dim = 2 * n' := hg
  have hb := accept_two (o := .mul) (by tauto) hf hc hn hn' h
  have hr := accept_two (o := .mul) (by tauto) ha hb.2 hn' (by omega) (by omega)
  refine ⟨_, ?_, hr.2.trans (by omega)⟩
  unfold divide
  rw [mkUn_even (by tauto) hg, ok_bind, mkUn_eq rfl, ok_bind, mkUn_eq rfl, ok_bind, mkUn_even (by tauto) hg, ok_bind,
    hb.1, ok_bind]
  exact hr.1

theorem abs_two (hf : f.dim = 2 * n) : ∃ r, abs f = .ok r ∧ r.dim = n := by
  refine ⟨.un .rsqrt (.un .sqAbs f), ?_, by show f.dim / 2 = n; omega⟩
  unfold abs
  rw [mkUn_even (by tauto) hf, ok_bind]
  exact mkUn_eq rfl

theorem angle_two (hf : f.dim = 2 * n) : ∃ r, angle f = .ok r ∧ r.dim = n := by
  refine ⟨.bin .ratan2 (.un .imag f) (.un .real f), ?_, by show max (f.dim / 2) (f.dim / 2) = n; omega⟩
  unfold angle
  rw [mkUn_even (by tauto) hf, ok_bind, mkUn_even (by tauto) hf, ok_bind]
  apply mkBin_eq
  show (f.dim / 2 == f.dim / 2 || _) = true
  simp

theorem Fits.minus (h : Fits s c n) : Fits (s.unary' .minus) c n := by
  obtain ⟨f, hf, hd⟩ := h.built
  refine ⟨h.isC, h.ndim, h.pos, .un .rneg f, ?_, hd⟩
  show (Src.un .minus s.formula).build = _
  rw [Src.build, hf, ok_bind]
  exact mkUn_eq rfl

theorem Fits.real2complex (h : Fits s false n) : ∃ t, s.real2complex = .ok t ∧ Fits t true n := by
  obtain ⟨f, hf, hd⟩ := h.built
  have hn := h.ndim
  simp only [Bool.false_eq_true, if_false] at hd hn
  refine ⟨_, by unfold LT.real2complex; rw [h.isC]; rfl, rfl, congrArg (2 * ·) hn, h.pos, .un .ofReal f, ?_,
    congrArg (2 * ·) hd⟩
  show (Src.un .real2complex s.formula).build = _
  rw [Src.build, hf, ok_bind]
  exact mkUn_eq rfl

theorem build_bin_eq {o : Op2} {a b : Src} (hf : a.build = .ok f) (hg : b.build = .ok g) :
    (Src.bin o a b).build = (match o with
    | .plus => mkBin .radd f g
    | .minus => mkBin .rsub f g
    | .times => mkBin .rmul f g
    | .over => mkBin .rdiv f g
    | .cRealScal => Cplx.realScal f g
    | .cMult => mkBin .mul f g
    | .cAdd => mkBin .add f g
    | .cSubtract => mkBin .sub f g
    | .cDivide => divide f g) := by
  rw [Src.build, hf, ok_bind, hg, ok_bind]
  cases o <;> rfl

theorem real_ok (o : Arith) (hf : f.dim = n) (hg : g.dim = n') (hn : 0 < n) (hn' : 0 < n')
    (h : n = n' ∨ n = 1 ∨ n' = 1) :
    mkBin o.bin f g = .ok (.bin o.bin f g) ∧ (Form.bin o.bin f g).dim = max n n' := by
  constructor
  · apply mkBin_eq
    have : o.bin.accept f.dim g.dim = (f.dim == g.dim || min f.dim g.dim == 1) := by cases o <;> rfl
    rw [this, Bool.or_eq_true, beq_iff_eq, beq_iff_eq]
    omega
  · have : (Form.bin o.bin f g).dim = max f.dim g.dim := by cases o <;> rfl
    omega

theorem binary_fits {o : Op2} {check rv : Bool} (h : check = true → s.ndim = t.ndim ∨ s.ndim = 1 ∨ t.ndim = 1) :
    s.binary t o check rv c =
      .ok ⟨if rv then .bin o t.formula s.formula else .bin o s.formula t.formula, max s.ndim t.ndim, c⟩ := by
  unfold LT.binary
  rw [if_neg]
  intro hc
  simp only [Bool.and_eq_true, decide_eq_true_eq] at hc
  have := h hc.1.1.1
  tauto

theorem Fits.opReal (o : Arith) (hs : Fits s false n) (ht : Fits t false n') (h : n = n' ∨ n = 1 ∨ n' = 1)
    {rv : Bool} : ∃ r, s.binary t o.real true rv false = .ok r ∧ Fits r false (max n n') := by
  obtain ⟨f, hf, hd⟩ := hs.built
  obtain ⟨g, hg, hd'⟩ := ht.built
  have h1 := hs.ndim
  have h2 := ht.ndim
  have hp := hs.pos
  have hp' := ht.pos
  simp only [Bool.false_eq_true, if_false] at hd hd' h1 h2
  refine ⟨_, binary_fits fun _ => by omega, rfl, by simp only [h1, h2]; simp, by omega, ?_⟩
  cases rv with
  | false =>
    have := real_ok o hd hd' hp hp' h
    refine ⟨_, ?_, this.2⟩
    simp only [Bool.false_eq_true, if_false]
    rw [build_bin_eq hf hg, ← this.1]
    cases o <;> rfl
  | true =>
    have := real_ok o hd' hd hp' hp (by tauto)
    refine ⟨_, ?_, this.2.trans (max_comm _ _)⟩
    simp only [if_true]
    rw [build_bin_eq hg hf, ← this.1]
    cases o <;> rfl

theorem Fits.opComplex (o : Arith) (hs : Fits s true n) (ht : Fits t true n') (h : n = n' ∨ n = 1 ∨ n' = 1) :
    ∃ r, s.binary t o.cop false false true = .ok r ∧ Fits r true (max n n') := by
  obtain ⟨f, hf, hd⟩ := hs.built
  obtain ⟨g, hg, hd'⟩ := ht.built
  have h1 := hs.ndim
  have h2 := ht.ndim
  have hp := hs.pos
  have hp' := ht.pos
  simp only [if_true] at hd hd' h1 h2
  refine ⟨_, binary_fits (by simp), rfl, by simp only [h1, h2, if_true]; exact max_two _ _, by omega, ?_⟩
  simp only [Bool.false_eq_true, if_false, if_true]
  rw [build_bin_eq hf hg]
  cases o with
  | add => exact ⟨_, accept_two (by tauto) hd hd' hp hp' h⟩
  | sub => exact ⟨_, accept_two (by tauto) hd hd' hp hp' h⟩
  | mul => exact ⟨_, accept_two (by tauto) hd hd' hp hp' h⟩
  | div => exact divide_two hd hd' hp hp' h

theorem Fits.realScal (hs : Fits s false 1) (ht : Fits t true n) :
    ∃ r, s.binary t .cRealScal true false true = .ok r ∧ Fits r true n := by
  obtain ⟨f, hf, hd⟩ := hs.built
  obtain ⟨g, hg, hd'⟩ := ht.built
  have h1 := hs.ndim
  have h2 := ht.ndim
  have hp := ht.pos
  simp only [Bool.false_eq_true, if_false, if_true] at hd hd' h1 h2
  refine ⟨_, binary_fits (by omega), rfl, by simp only [h1, h2, if_true]; omega, by omega, .bin .realScal f g, ?_, hd'⟩
  simp only [Bool.false_eq_true, if_false]
  rw [build_bin_eq hf hg]
  unfold Cplx.realScal
  simp only [hd, if_true]
  apply mkBin_eq
  show (f.dim == 1 && g.dim % 2 == 0) = true
  rw [hd, hd']
  simp

theorem Fits.op (o : Arith) (hs : Fits s true n) (ht : Fits t c n') (h : n = n' ∨ n = 1 ∨ n' = 1) :
    ∃ r, LT.op o s t false = .ok r ∧ Fits r true (max n n') := by
  have hp := hs.pos
  have key : ∀ {o' : Op2}, o' = o.cop → ∃ r, s.opC o' t false = .ok r ∧ Fits r true (max n n') := by
    intro o' ho
    subst ho
    unfold LT.opC
    rw [ht.isC]
    cases c with
    | true => exact Fits.opComplex o hs ht h
    | false =>
      obtain ⟨r, hr, hfit⟩ := ht.real2complex
      simp only [Bool.not_false, if_true, hr, ok_bind]
      exact Fits.opComplex o hs hfit h
  unfold LT.op
  simp only [hs.isC, if_true]
  cases o with
  | add => exact key rfl
  | sub => exact key rfl
  | div => exact key rfl
  | mul =>
    show ∃ r, s.mulopC t false = .ok r ∧ _
    have h2 := ht.ndim
    have hp' := ht.pos
    unfold LT.mulopC
    cases c with
    | true =>
      simp only [if_true] at h2
      rw [if_neg (by omega), ht.isC]
      exact Fits.opComplex .mul hs ht h
    | false =>
      simp only [Bool.false_eq_true, if_false] at h2
      by_cases h1 : n' = 1
      · subst h1
        rw [if_pos h2]
        obtain ⟨r, hr, hfit⟩ := Fits.realScal ht hs
        exact ⟨r, hr, by rwa [show max n 1 = n by omega]⟩
      · rw [if_neg (by omega), ht.isC]
        obtain ⟨r, hr, hfit⟩ := ht.real2complex
        have hn := hfit.ndim
        simp only [if_true] at hn
        simp only [Bool.not_false, if_true, hr, ok_bind]
        rw [if_neg (by omega)]
        exact Fits.opComplex .mul hs hfit h

theorem Fits.arith (o : Arith) (hs : Fits s c n) (ht : Fits t c' n') (h : n = n' ∨ n = 1 ∨ n' = 1) :
    ∃ r, LT.arith o s t = .ok r ∧ Fits r (c || c') (max n n') := by
  unfold LT.arith
  rw [hs.isC, ht.isC]
  cases c with
  | true =>
    simp only [Bool.not_true, Bool.and_false, Bool.false_eq_true, if_false]
    exact Fits.op o hs ht h
  | false =>
    cases c' with
    | false =>
      simp only [Bool.false_and, Bool.false_eq_true, if_false]
      unfold LT.op
      rw [hs.isC, ht.isC]
      exact Fits.opReal o hs ht h
    | true =>
      simp only [Bool.not_false, Bool.and_true, if_true]
      obtain ⟨r, hr, hfit⟩ := hs.real2complex
      cases o with
      | mul =>
        obtain ⟨r, hr, hfit⟩ := Fits.op .mul ht hs (by tauto)
        exact ⟨r, hr, max_comm n n' ▸ hfit⟩
      | add => simp only [hr, ok_bind]; exact Fits.op .add hfit ht h
      | sub => simp only [hr, ok_bind]; exact Fits.op .sub hfit ht h
      | div => simp only [hr, ok_bind]; exact Fits.op .div hfit ht h

theorem Number.fits (x : Number) (key : Int) : Fits (x.lt key) x.isC 1 := by
  refine ⟨rfl, ?_, by omega, _, rfl, ?_⟩
  · cases hx : x.isC <;> simp [Number.lt, hx]
  · cases hx : x.isC <;> simp [hx, Form.dim]

theorem Fits.opNum (o : Arith) {x : Number} {key : Int} {rv : Bool} (hs : Fits s false n) (hx : x.isC = false) :
    ∃ r, s.opNum o (x.lt key) rv = .ok r ∧ Fits r false n := by
  have hn := x.fits key
  rw [hx] at hn
  have hp := hs.pos
  unfold LT.opNum
  rw [hs.isC, hn.isC]
  simp only [Bool.false_eq_true, if_false, Bool.or_false]
  obtain ⟨r, hr, hfit⟩ := Fits.opReal o hs hn (by tauto) (rv := rv)
  exact ⟨r, hr, by rwa [show max n 1 = n by omega] at hfit⟩

/-- Unless the operation is mixed, the number is real, or it is complex and multiplies a real tensor, or the tensor is
complex. -/
theorem not_mixed {o : Arith} {x : Number} (h : ¬Mixed o x c) :
    c = true ∨ (c = false ∧ x.isC = false) ∨
      (c = false ∧ x.isC = true ∧ o = .mul ∧ x.val ≠ 0 ∧ x.val ≠ 1 ∧ x.val ≠ -1) := by
  cases c with
  | true => exact Or.inl rfl
  | false =>
    cases hx : x.isC with
    | false => exact Or.inr (Or.inl ⟨rfl, rfl⟩)
    | true =>
      refine Or.inr (Or.inr ⟨rfl, rfl, ?_⟩)
      by_contra hcon
      exact h ⟨hx, rfl, hcon⟩

theorem Fits.arithNum (o : Arith) {x : Number} {key : Int} (hs : Fits s c n) (ht : c = true → Trivial o x)
    (hm : ¬Mixed o x c) (h0 : ¬(o = .mul ∧ x.val = 0)) :
    ∃ r, s.arithNum o x key = .ok r ∧ Fits r (c || x.isC) n := by
  have hp := hs.pos
  rcases not_mixed hm with rfl | ⟨rfl, hx⟩ | ⟨rfl, hx, rfl, h0, h1, h2⟩
  · have ht := ht rfl
    cases o with
    | add => exact ⟨s, if_pos ht, hs⟩
    | sub => exact ⟨s, if_pos ht, hs⟩
    | div => exact ⟨s, if_pos ht, hs⟩
    | mul =>
      rcases ht with ht | ht
      · exact ⟨s, by simp [LT.arithNum, ht], hs⟩
      · exact ⟨_, by simp [LT.arithNum, ht]; norm_num, hs.minus⟩
  · rw [hx]
    have hop := fun o => Fits.opNum o hs hx (key := key) (rv := false)
    cases o <;> simp only [LT.arithNum, hx, Bool.false_and, Bool.false_eq_true, if_false] <;> split_ifs with h1 <;>
      first
      | exact ⟨_, rfl, hs⟩
      | exact ⟨_, rfl, hs.minus⟩
      | exact hop _
      | exact absurd ⟨rfl, h1⟩ h0
  · simp only [LT.arithNum, if_neg h0, if_neg h1, if_neg h2]
    rw [hx, hs.isC]
    have hn := x.fits key
    rw [hx] at hn
    obtain ⟨r, hr, hfit⟩ := Fits.op .mul hn hs (by tauto)
    exact ⟨r, hr, by rwa [show max 1 n = n by omega] at hfit⟩

theorem Fits.numArith (o : Arith) {x : Number} {key : Int} (hs : Fits s c n)
    (ht : c = true → (o = .add ∧ x.val = 0) ∨ (o = .sub ∧ x.val = 0) ∨ (o = .mul ∧ (x.val = 1 ∨ x.val = -1)))
    (hm : ¬Mixed o x c) (h0 : ¬(o = .mul ∧ x.val = 0)) (h0' : ¬(o = .div ∧ x.val = 0)) :
    ∃ r, LT.numArith o x key s = .ok r ∧ Fits r (x.isC || c) n := by
  have hp := hs.pos
  rcases not_mixed hm with rfl | ⟨rfl, hx⟩ | ⟨rfl, hx, rfl, h0, h1, h2⟩
  · rw [Bool.or_true]
    rcases ht rfl with ⟨rfl, hv⟩ | ⟨rfl, hv⟩ | ⟨rfl, hv | hv⟩
    · exact ⟨s, if_pos hv, hs⟩
    · exact ⟨_, if_pos hv, hs.minus⟩
    · exact ⟨s, by simp [LT.numArith, hv], hs⟩
    · exact ⟨_, by simp [LT.numArith, hv]; norm_num, hs.minus⟩
  · rw [hx]
    have hop := fun o => Fits.opNum o hs hx (key := key) (rv := true)
    have hinv : Fits (s.unary' .inv) false n := by
      obtain ⟨f, hf, hd⟩ := hs.built
      refine ⟨hs.isC, hs.ndim, hs.pos, .un .rinv f, ?_, hd⟩
      show (Src.un .inv s.formula).build = _
      rw [Src.build, hf, ok_bind]
      exact mkUn_eq rfl
    cases o <;> simp only [LT.numArith, hx, Bool.false_and, Bool.false_eq_true, if_false] <;> split_ifs with h1 <;>
      first
      | exact ⟨_, rfl, hinv⟩
      | exact ⟨_, rfl, hs⟩
      | exact ⟨_, rfl, hs.minus⟩
      | exact hop _
      | exact absurd ⟨rfl, h1⟩ h0
      | exact absurd ⟨rfl, h1⟩ h0'
  · simp only [LT.numArith, if_neg h0, if_neg h1, if_neg h2]
    rw [hx, hs.isC]
    have hn := x.fits key
    rw [hx] at hn
    obtain ⟨r, hr, hfit⟩ := hs.real2complex
    simp only [Bool.not_false, Bool.and_true, if_true, hr, ok_bind]
    obtain ⟨r, hr, hfit⟩ := Fits.op .mul hfit hn (by tauto)
    exact ⟨r, hr, by rwa [show max n 1 = n by omega] at hfit⟩

theorem Fits.meth (m : Meth) (hs : Fits s c n)
    (h : match m with
      | .neg | .square | .cos | .sin | .exp => True
      | .real2complex | .imag2complex | .exp1j => c = false
      | .abs | .real | .imag | .angle | .conj | .sum => c = true) :
    ∃ r, s.meth m = .ok r ∧ Fits r (m.isC c) (if m = .sum then 1 else n) := by
  obtain ⟨f, hf, hd⟩ := hs.built
  have hn := hs.ndim
  have hp := hs.pos
  have same : ∀ (o : Op1) (o' : Un), (Src.un o s.formula).build = mkUn o' f → o'.accept f.dim = true →
      o'.dim f.dim = f.dim → Fits (s.unary' o) c n := fun o o' hb ha hdim =>
    ⟨hs.isC, hn, hp, .un o' f, hb.trans (mkUn_eq ha), hdim.trans hd⟩
  have hb : ∀ o, (Src.un o s.formula).build = _ := fun o => by rw [Src.build, hf, ok_bind]
  unfold LT.meth
  rw [hs.isC]
  cases m with
  | neg => exact ⟨_, rfl, same .minus .rneg (hb _) rfl rfl⟩
  | square => exact ⟨_, rfl, same .square .rsquare (hb _) rfl rfl⟩
  | cos => exact ⟨_, rfl, same .cos .rcos (hb _) rfl rfl⟩
  | sin => exact ⟨_, rfl, same .sin .rsin (hb _) rfl rfl⟩
  | exp =>
    cases c with
    | false => exact ⟨_, rfl, same .exp .rexp (hb _) rfl rfl⟩
    | true => exact ⟨_, rfl, rfl, hn, hp, .un .exp f, (hb .cExp).trans (mkUn_even (by tauto) hd), hd⟩
  | abs =>
    subst h
    obtain ⟨r, hr, hrd⟩ := abs_two hd
    simp only [if_true] at hn
    exact ⟨_, rfl, rfl, by show s.ndim / 2 = n; omega, hp, r, (hb .cAbs).trans hr, hrd⟩
  | real =>
    subst h
    simp only [if_true] at hn hd
    exact ⟨_, rfl, rfl, by show s.ndim / 2 = n; omega, hp, .un .real f, (hb .cReal).trans (mkUn_even (by tauto) hd),
      by show f.dim / 2 = n; omega⟩
  | imag =>
    subst h
    simp only [if_true] at hn hd
    exact ⟨_, rfl, rfl, by show s.ndim / 2 = n; omega, hp, .un .imag f, (hb .cImag).trans (mkUn_even (by tauto) hd),
      by show f.dim / 2 = n; omega⟩
  | angle =>
    subst h
    obtain ⟨r, hr, hrd⟩ := angle_two hd
    simp only [if_true] at hn
    exact ⟨_, rfl, rfl, by show s.ndim / 2 = n; omega, hp, r, (hb .cAngle).trans hr, hrd⟩
  | conj =>
    subst h
    exact ⟨_, rfl, rfl, hn, hp, .un .conj f, (hb .conj).trans (mkUn_even (by tauto) hd), hd⟩
  | real2complex =>
    subst h
    exact hs.real2complex
  | imag2complex =>
    subst h
    exact ⟨_, rfl, rfl, congrArg (2 * ·) hn, hp, .un .ofImag f, (hb .imag2complex).trans (mkUn_eq rfl),
      congrArg (2 * ·) hd⟩
  | exp1j =>
    subst h
    exact ⟨_, rfl, rfl, congrArg (2 * ·) hn, hp, .un .exp1j f, (hb .exp1j).trans (mkUn_eq rfl), congrArg (2 * ·) hd⟩
  | sum =>
    subst h
    exact ⟨_, rfl, rfl, rfl, Nat.one_pos, .un .sum f, (hb .cSum).trans (mkUn_even (by tauto) hd), rfl⟩

theorem Prog.fits {p : Prog} (h : p.Ok) : ∃ t, p.lt = .ok t ∧ Fits t p.isC p.len := by
  induction p with
  | arr pos n cat isC => exact ⟨_, rfl, rfl, rfl, h, _, rfl, rfl⟩
  | meth m p ih =>
    obtain ⟨s, hs, hfit⟩ := ih h.1
    obtain ⟨r, hr, hfit⟩ := hfit.meth m (by have := h.2; cases m <;> exact this)
    refine ⟨r, by rw [Prog.lt, hs, ok_bind]; exact hr, ?_⟩
    cases m <;> exact hfit
  | bin o p q ihp ihq =>
    obtain ⟨s, hs, hf⟩ := ihp h.1
    obtain ⟨t, ht, hg⟩ := ihq h.2.1
    obtain ⟨r, hr, hfit⟩ := hf.arith o hg h.2.2
    exact ⟨r, by rw [Prog.lt, hs, ok_bind, ht, ok_bind]; exact hr, hfit⟩
  | binNum o p x key ih =>
    obtain ⟨s, hs, hf⟩ := ih h.1
    obtain ⟨r, hr, hfit⟩ := hf.arithNum o (key := key) h.2.1 h.2.2.1 h.2.2.2
    exact ⟨r, by rw [Prog.lt, hs, ok_bind]; exact hr, hfit⟩
  | numBin o x key p ih =>
    obtain ⟨s, hs, hf⟩ := ih h.1
    obtain ⟨r, hr, hfit⟩ := hf.numArith o (key := key) h.2.1 h.2.2.1 h.2.2.2.1 h.2.2.2.2
    exact ⟨r, by rw [Prog.lt, hs, ok_bind]; exact hr, hfit⟩

/-! ## Variables -/

theorem mkUn_vars {o : Un} {r : Form} (h : mkUn o f = .ok r) : r.vars = f.vars := by
  obtain ⟨rfl, -⟩ := mkUn_ok h
  rfl

theorem mkBin_vars {o : Bin} {r : Form} (h : mkBin o f g = .ok r) : r.vars = f.vars ++ g.vars := by
  obtain ⟨rfl, -⟩ := mkBin_ok h
  rfl

/-- The variables that are written. -/
def Src.vars : Src → List (Int × Nat × Int)
  | .var i d c => [(i, d, c)]
  | .un _ a => a.vars
  | .bin _ a b => a.vars ++ b.vars

theorem build_vars {a : Src} {r : Form} (h : a.build = .ok r) : ∀ v ∈ r.vars, v ∈ a.vars := by
  induction a generalizing r with
  | var i d c =>
    obtain rfl := Except.ok.inj h
    exact fun v hv => hv
  | un o a ih =>
    obtain ⟨f, hf, hr⟩ := build_un h
    have hv := ih hf
    have key : ∀ v ∈ r.vars, v ∈ f.vars := by
      cases o <;> first
        | exact (mkUn_vars hr) ▸ fun v hv => hv
        | skip
      · obtain ⟨a, ha, hr⟩ := bindOk hr
        obtain ⟨b, hb, hr⟩ := bindOk hr
        rw [mkBin_vars hr, mkUn_vars ha, mkUn_vars hb]
        exact fun v hv => by simpa using hv
      · obtain ⟨a, ha, hr⟩ := bindOk hr
        rw [mkUn_vars hr, mkUn_vars ha]
        exact fun v hv => hv
    exact fun v h => hv v (key v h)
  | bin o a b iha ihb =>
    obtain ⟨f, g, hf, hg, hr⟩ := build_bin h
    have h1 := iha hf
    have h2 := ihb hg
    have key : ∀ v ∈ r.vars, v ∈ f.vars ∨ v ∈ g.vars := by
      have simple : ∀ {o : Bin}, mkBin o f g = .ok r → ∀ v ∈ r.vars, v ∈ f.vars ∨ v ∈ g.vars :=
        fun h v hv => List.mem_append.mp (mkBin_vars h ▸ hv)
      cases o with
      | cRealScal =>
        intro v hv
        simp only [realScal] at hr
        split_ifs at hr
        · exact simple hr v hv
        · exact (List.mem_append.mp (mkBin_vars hr ▸ hv)).symm
      | cDivide =>
        simp only [divide] at hr
        obtain ⟨s, hs, hr⟩ := bindOk hr
        obtain ⟨i, hi, hr⟩ := bindOk hr
        obtain ⟨a, ha, hr⟩ := bindOk hr
        obtain ⟨c, hc, hr⟩ := bindOk hr
        obtain ⟨b, hb, hr⟩ := bindOk hr
        rw [mkBin_vars hr, mkUn_vars ha, mkUn_vars hi, mkUn_vars hs, mkBin_vars hb, mkUn_vars hc]
        intro v hv
        simp only [List.mem_append] at hv
        tauto
      | _ => exact simple hr
    intro v hv
    rw [Src.vars, List.mem_append]
    exact (key v hv).imp (h1 v) (h2 v)

theorem binary_vars {o : Op2} {check rv : Bool} {r : LT} (h : s.binary t o check rv c = .ok r) :
    ∀ v ∈ r.formula.vars, v ∈ s.formula.vars ∨ v ∈ t.formula.vars := by
  rw [binary_ok h]
  cases rv with
  | true => exact fun v hv => (List.mem_append.mp hv).symm
  | false => exact fun v hv => List.mem_append.mp hv

theorem real2complex_vars {r : LT} (h : s.real2complex = .ok r) : r.formula.vars = s.formula.vars := by
  unfold LT.real2complex at h
  split_ifs at h
  obtain rfl := Except.ok.inj h
  rfl

theorem op_vars {o : Arith} {rv : Bool} {r : LT} (h : LT.op o s t rv = .ok r) :
    ∀ v ∈ r.formula.vars, v ∈ s.formula.vars ∨ v ∈ t.formula.vars := by
  have hC : ∀ {o}, s.opC o t rv = .ok r → ∀ v ∈ r.formula.vars, v ∈ s.formula.vars ∨ v ∈ t.formula.vars := by
    intro o h
    unfold LT.opC at h
    split_ifs at h
    · obtain ⟨r', hr', h⟩ := bindOk h
      rw [← real2complex_vars hr']
      exact binary_vars h
    · exact binary_vars h
  unfold LT.op at h
  split_ifs at h
  · cases o with
    | add => exact hC h
    | sub => exact hC h
    | div => exact hC h
    | mul =>
      simp only [LT.mulopC] at h
      split_ifs at h
      · exact fun v hv => (binary_vars h v hv).symm
      · obtain ⟨r', hr', h⟩ := bindOk h
        rw [← real2complex_vars hr']
        split_ifs at h
        · exact fun v hv => (binary_vars h v hv).symm
        · exact binary_vars h
      · exact binary_vars h
  · exact binary_vars h

theorem opNum_vars {o : Arith} {rv : Bool} {r : LT} (h : s.opNum o t rv = .ok r) :
    ∀ v ∈ r.formula.vars, v ∈ s.formula.vars ∨ v ∈ t.formula.vars := by
  unfold LT.opNum at h
  split_ifs at h
  exact binary_vars h

theorem arith_vars {o : Arith} {r : LT} (h : LT.arith o s t = .ok r) :
    ∀ v ∈ r.formula.vars, v ∈ s.formula.vars ∨ v ∈ t.formula.vars := by
  unfold LT.arith at h
  split_ifs at h
  · cases o with
    | mul => exact fun v hv => (op_vars h v hv).symm
    | _ =>
      obtain ⟨r', hr', h⟩ := bindOk h
      rw [← real2complex_vars hr']
      exact op_vars h
  · exact op_vars h

theorem meth_vars {m : Meth} {r : LT} (h : s.meth m = .ok r) : r.formula.vars = s.formula.vars := by
  unfold LT.meth at h
  cases m <;> simp only at h
  case real2complex => exact real2complex_vars h
  all_goals
    first
    | (obtain rfl := Except.ok.inj h; first | rfl | (split_ifs <;> rfl))
    | (split_ifs at h; obtain rfl := Except.ok.inj h; rfl)

theorem arithNum_vars {o : Arith} {x : Number} {key : Int} {r : LT} (h : s.arithNum o x key = .ok r) :
    ∀ v ∈ r.formula.vars, v ∈ s.formula.vars ∨ v ∈ (x.lt key).formula.vars := by
  cases o <;> simp only [LT.arithNum] at h <;> split_ifs at h <;>
    first
    | (obtain rfl := Except.ok.inj h; exact fun v hv => Or.inl hv)
    | exact opNum_vars h
    | exact fun v hv => (op_vars h v hv).symm

theorem numArith_vars {o : Arith} {x : Number} {key : Int} {r : LT} (h : LT.numArith o x key s = .ok r) :
    ∀ v ∈ r.formula.vars, v ∈ s.formula.vars ∨ v ∈ (x.lt key).formula.vars := by
  cases o <;> simp only [LT.numArith] at h <;> split_ifs at h <;>
    first
    | (obtain rfl := Except.ok.inj h; exact fun v hv => Or.inl hv)
    | exact opNum_vars h
    | (obtain ⟨r', hr', h⟩ := bindOk h; rw [← real2complex_vars hr']; exact op_vars h)

/-- The formula of a program reads the arguments of the program. -/
theorem Prog.lt_vars {p : Prog} {t : LT} (h : p.lt = .ok t) : ∀ v ∈ t.formula.vars, v ∈ p.vars := by
  induction p generalizing t with
  | arr pos n cat isC =>
    obtain rfl := Except.ok.inj h
    exact fun v hv => hv
  | meth m p ih =>
    rw [Prog.lt] at h
    obtain ⟨s, hs, h⟩ := bindOk h
    rw [meth_vars h]
    exact ih hs
  | bin o p q ihp ihq =>
    rw [Prog.lt] at h
    obtain ⟨s, hs, h⟩ := bindOk h
    obtain ⟨s', hs', h⟩ := bindOk h
    intro v hv
    rw [Prog.vars, List.mem_append]
    exact (arith_vars h v hv).imp (ihp hs v) (ihq hs' v)
  | binNum o p x key ih =>
    rw [Prog.lt] at h
    obtain ⟨s, hs, h⟩ := bindOk h
    intro v hv
    rw [Prog.vars, List.mem_cons]
    exact (arithNum_vars h v hv).symm.imp List.mem_singleton.mp (ih hs v)
  | numBin o x key p ih =>
    rw [Prog.lt] at h
    obtain ⟨s, hs, h⟩ := bindOk h
    intro v hv
    rw [Prog.vars, List.mem_cons]
    exact (numArith_vars h v hv).symm.imp List.mem_singleton.mp (ih hs v)

/-! ## Calls -/

theorem GoodVars.sub {l l' : List (Int × Nat × Int)} (h : GoodVars l) (hs : ∀ v ∈ l', v ∈ l) : GoodVars l' :=
  ⟨fun v hv => h.pos v (hs v hv), fun v hv => h.cat v (hs v hv), fun u hu v hv => h.unique u (hs u hu) v (hs v hv)⟩

theorem Form.mem_inputs {w : VarInfo} : w ∈ f.inputs ↔
    ∃ v ∈ f.vars, (v.2.2 = 0 ∨ v.2.2 = 1 ∨ v.2.2 = 2) ∧ w = ⟨v.1.toNat, v.2.1, v.2.2.toNat⟩ := by
  unfold Form.inputs
  rw [List.mem_map]
  constructor
  · rintro ⟨v, hv, rfl⟩
    have := List.mem_filter.mp (List.mem_dedup.mp (((List.perm_insertionSort _ _).mem_iff).mp hv))
    exact ⟨v, this.1, of_decide_eq_true this.2, rfl⟩
  · rintro ⟨v, h1, h2, rfl⟩
    exact ⟨v, ((List.perm_insertionSort _ _).mem_iff).mpr
      (List.mem_dedup.mpr (List.mem_filter.mpr ⟨h1, decide_eq_true h2⟩)), rfl⟩

theorem inputs_wf' (h : GoodVars f.vars) : WfVars f.inputs where
  nodup := by
    unfold Form.inputs
    rw [List.map_map]
    have hn : ((f.vars.filter fun v => v.2.2 = 0 ∨ v.2.2 = 1 ∨ v.2.2 = 2).dedup.insertionSort
        fun u v => u.1 ≤ v.1).Nodup := (List.perm_insertionSort _ _).nodup_iff.mpr (List.nodup_dedup _)
    refine List.Nodup.map_on ?_ hn
    intro u hu v hv huv
    have hu := List.mem_filter.mp (List.mem_dedup.mp (((List.perm_insertionSort _ _).mem_iff).mp hu))
    have hv := List.mem_filter.mp (List.mem_dedup.mp (((List.perm_insertionSort _ _).mem_iff).mp hv))
    have h1 := of_decide_eq_true hu.2
    have h2 := of_decide_eq_true hv.2
    have h3 := h.pos u hu.1 (by omega)
    have h4 := h.pos v hv.1 (by omega)
    simp only [Function.comp] at huv
    exact h.unique u hu.1 v hv.1 (by omega) (by omega) (by omega)
  cat v hv := by
    obtain ⟨v, -, h2, rfl⟩ := Form.mem_inputs.mp hv
    simp only
    omega

/-- The array of a variable. -/
theorem ins_eq (h : GoodVars f.vars) (h3 : ∀ v ∈ f.vars, v.2.2 ≠ 3) {v : Int × Nat × Int} (hv : v ∈ f.vars)
    (t : Nat → Option (Mem ℝ)) :
    f.ins t v.1 = (List.range v.2.1).map fun k => ((t v.1.toNat).getD fun _ => 0) k := by
  unfold Form.ins
  cases hf : f.vars.find? fun w => w.1 = v.1 with
  | none => exact absurd (decide_eq_true rfl) (List.find?_eq_none.mp hf v hv)
  | some w =>
    have hw := List.mem_of_find?_eq_some hf
    have he : w.1 = v.1 := by simpa using List.find?_some hf
    rw [h.unique w hw v hv (h3 w hw) (h3 v hv) he]

theorem code_ins_congr {M : CMath} {junk : Form → Nat → ℝ} {ins ins' : Int → CArr} {f : Form} {out : CArr}
    (h : ∀ v ∈ f.vars, ins v.1 = ins' v.1) : f.code M junk ins out = f.code M junk ins' out := by
  have hin : ∀ f : Form, (∀ v ∈ f.vars, ins v.1 = ins' v.1) →
      (∀ out, f.code M junk ins out = f.code M junk ins' out) →
      (f.input?.elim (f.code M junk ins ((List.range f.dim).map (junk f))) fun i => Except.ok (ins i)) =
      (f.input?.elim (f.code M junk ins' ((List.range f.dim).map (junk f))) fun i => Except.ok (ins' i)) := by
    intro f h hc
    cases f with
    | var i d c => exact congrArg Except.ok (h (i, d, c) (List.mem_singleton.mpr rfl))
    | _ => exact hc _
  induction f generalizing out with
  | var i d c =>
    have : ins i = ins' i := h (i, d, c) (List.mem_singleton.mpr rfl)
    simp only [Form.code, this]
  | zero d => rfl
  | un o f ih =>
    simp only [Form.code]
    rw [hin f h fun out => ih h]
  | bin o f g ihf ihg =>
    have h1 : ∀ v ∈ f.vars, ins v.1 = ins' v.1 := fun v hv => h v (List.mem_append_left _ hv)
    have h2 : ∀ v ∈ g.vars, ins v.1 = ins' v.1 := fun v hv => h v (List.mem_append_right _ hv)
    simp only [Form.code]
    rw [hin f h1 fun out => ihf h1, hin g h2 fun out => ihg h2]

theorem form_call_wf {M : CMath} {junk : Form → Nat → ℝ} {tagI m n : Nat} {args : Nat → Mem ℝ} (h : GoodVars f.vars)
    (h3 : ∀ v ∈ f.vars, v.2.2 ≠ 3) (ht : tagI < 2) : WfProblem (f.call M junk tagI m n args) where
  vars := inputs_wf' h
  tag := ht
  ev := by
    intro t t' heq
    have : ∀ v ∈ f.vars, f.ins t v.1 = f.ins t' v.1 := fun v hv => by
      rw [ins_eq h h3 hv, ins_eq h h3 hv]
      have hc := h.cat v hv
      have h3 := h3 v hv
      obtain ⟨a, a', h1, h2, he⟩ := heq ⟨v.1.toNat, v.2.1, v.2.2.toNat⟩ (Form.mem_inputs.mpr ⟨v, hv, by omega, rfl⟩)
      simp only at h1 h2 he
      rw [h1, h2]
      exact List.map_congr_left fun k hk => he k (List.mem_range.mp hk)
    funext k
    simp only [Form.call]
    rw [code_ins_congr this]

/-- The value of the call for one pair of rows. -/
theorem form_call_value {M : CMath} {junk : Form → Nat → ℝ} {tagI m n : Nat} {args : Nat → Mem ℝ} (h : GoodVars f.vars)
    (h3 : ∀ v ∈ f.vars, v.2.2 ≠ 3) (hM : M.Exact) {i j : Nat} {env : Env} {y : Vec} (hc : Computes env f y)
    (henv : ∀ v ∈ f.vars, ∀ k < v.2.1,
      env v.1 k = args v.1.toNat (Spec.row tagI i j v.2.2.toNat * v.2.1 + k)) {k : Nat} (hk : k < f.dim) :
    (f.call M junk tagI m n args).ev (Spec.env f.inputs tagI args i j) k = y k := by
  obtain ⟨r, h1, h2, h4⟩ := hc M hM junk (f.ins (Spec.env f.inputs tagI args i j)) ((List.range f.dim).map (junk f))
    (fun v hv => by
      rw [ins_eq h h3 hv]
      have hcat := h.cat v hv
      have hn := h3 v hv
      have hi : (⟨v.1.toNat, v.2.1, v.2.2.toNat⟩ : VarInfo) ∈ f.inputs := Form.mem_inputs.mpr ⟨v, hv, by omega, rfl⟩
      have hfi := find_ind (inputs_wf' h).nodup hi
      simp only at hfi
      simp only [Spec.env, hfi, Option.map_some, Option.getD_some]
      exact List.map_congr_left fun k hk => (henv v hv k (List.mem_range.mp hk)).symm) (by simp)
  simp only [Form.call, h1]
  simp [List.getD_eq_getElem?_getD, h4 k hk]

end Verif.Cplx
