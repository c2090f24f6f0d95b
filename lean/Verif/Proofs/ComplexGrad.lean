import Verif.Proofs.ComplexDiff

/-!
# Gradients of formulas with complex operations: helper lemmas
-/

namespace Verif.Cplx

open Finset Spec

section

variable {E : Type} [NormedAddCommGroup E] [NormedSpace ℝ E]
variable {F : E → Env} {p : E} {δ : Nat → (E →L[ℝ] ℝ)} {v : VarId}
variable {f g : Form} {Df Dg : Diff} {f' g' : Nat → (E →L[ℝ] ℝ)} {m : Nat}

theorem WF_real {o : Un} (ho : o.isReal = true) (hf : f.WF) : (Form.un o f).WF := by
  cases o <;> first | exact Bool.noConfusion ho | exact ⟨hf, rfl, fun n h => by cases h⟩

theorem WF_of {o : Un} (ho : o = .ofReal ∨ o = .ofImag) (hf : f.WF) : (Form.un o f).WF := by
  rcases ho with rfl | rfl <;> exact ⟨hf, rfl, fun n h => by cases h⟩

theorem WF_even {o : Un} (ho : o = .conj ∨ o = .real ∨ o = .imag ∨ o = .sqAbs ∨ o = .sum) (hf : f.WF)
    (h : f.dim % 2 = 0) : (Form.un o f).WF := by
  rcases ho with rfl | rfl | rfl | rfl | rfl <;> exact ⟨hf, beq_iff_eq.mpr h, fun n h => by cases h⟩

theorem Good.rexp (hf : Good F p δ v f Df f') (hv : 0 < v.dim) :
    ∃ F', Good F p δ v (.un .rexp f) (dTerm (.un .rexp f) Df) F' :=
  hf.realUn hv Real.exp Real.exp (fun _ _ _ => rfl) (fun _ _ _ => rfl) rfl rfl trivial trivial
    fun k _ => Real.hasDerivAt_exp _

theorem Good.rcos (hf : Good F p δ v f Df f') (hv : 0 < v.dim) :
    ∃ F', Good F p δ v (.un .rcos f) (dTerm (.un .dcos f) Df) F' :=
  hf.realUn hv Real.cos (fun x => -Real.sin x) (fun _ _ _ => rfl) (fun _ _ _ => rfl) rfl rfl trivial trivial
    fun k _ => Real.hasDerivAt_cos _

theorem Good.rsin (hf : Good F p δ v f Df f') (hv : 0 < v.dim) :
    ∃ F', Good F p δ v (.un .rsin f) (dTerm (.un .rcos f) Df) F' :=
  hf.realUn hv Real.sin Real.cos (fun _ _ _ => rfl) (fun _ _ _ => rfl) rfl rfl trivial trivial
    fun k _ => Real.hasDerivAt_sin _

theorem Good.rinv (hf : Good F p δ v f Df f') (hv : 0 < v.dim) (h : ∀ k < f.dim, f.val (F p) k ≠ 0) :
    ∃ F', Good F p δ v (.un .rinv f) (dTerm (.un .dinv f) Df) F' :=
  hf.realUn hv (fun x => 1 / x) (fun x => -1 / x ^ 2) (fun _ _ _ => rfl) (fun _ _ _ => rfl) rfl rfl h h
    fun k hk => by
      simp only [one_div]
      exact (hasDerivAt_inv (h k hk)).congr_deriv (by ring)

theorem Good.rsqrt (hf : Good F p δ v f Df f') (hv : 0 < v.dim) (h : ∀ k < f.dim, 0 < f.val (F p) k) :
    ∃ F', Good F p δ v (.un .rsqrt f) (dTerm (.un .dsqrt f) Df) F' :=
  hf.realUn hv Real.sqrt (fun x => 1 / (2 * Real.sqrt x)) (fun _ _ _ => rfl) (fun _ _ _ => rfl) rfl rfl
    (fun k hk => (h k hk).le) h fun k hk => Real.hasDerivAt_sqrt (h k hk).ne'

/-- A sum of a real and an imaginary part. -/
theorem radd_parts {a b : Form} {env : Env} (hd : a.dim = b.dim) (i : Nat) (hi : i < 2 * a.dim) :
    (Form.bin .radd (.un .ofReal a) (.un .ofImag b)).val env i =
      store (fun k => (⟨a.val env k, b.val env k⟩ : ℂ)) i := by
  show cst (2 * a.dim) _ i + cst (2 * b.dim) _ i = _
  rw [cst_of_lt _ hi, cst_of_lt _ (by omega)]
  simp only [Form.val, unVal, store]
  split_ifs <;> simp

theorem rmul_val {a b : Form} {env : Env} (hd : a.dim = b.dim) {i : Nat} (hi : i < a.dim) :
    (Form.bin .rmul a b).val env i = a.val env i * b.val env i := by
  show cst a.dim _ i * cst b.dim _ i = _
  rw [cst_of_lt _ hi, cst_of_lt _ (by omega)]

theorem Good.exp1j (hf : Good F p δ v f Df f') (hv : 0 < v.dim) :
    ∃ F', Good F p δ v (.un .exp1j f) (dExp1j f Df) F' := by
  obtain ⟨_, h1⟩ := hf.rcos hv
  obtain ⟨_, h2⟩ := hf.rsin hv
  obtain ⟨_, h3⟩ := h1.ofReal (WF_of (by tauto) h1.wf)
  obtain ⟨_, h4⟩ := h2.ofImag (WF_of (by tauto) h2.wf)
  obtain ⟨_, h5⟩ := h3.radd h4 rfl
  have hdim : (Form.bin .radd (.un .ofReal (.un .rcos f)) (.un .ofImag (.un .rsin f))).dim = 2 * f.dim := max_self _
  refine ⟨_, h5.of_eq ⟨hf.wf, rfl, fun n h => by cases h⟩ ⟨hf.defined, trivial⟩ hdim.symm ?_⟩
  intro q i hi
  rw [hdim] at hi
  rw [radd_parts (a := .un .rcos f) (b := .un .rsin f) rfl i hi]
  simp only [Form.val, unVal]
  congr 1
  funext k
  rw [← Complex.cos_add_sin_I]
  apply Complex.ext <;> simp [Form.val, unVal, Complex.cos_ofReal_re, Complex.sin_ofReal_re, Complex.cos_ofReal_im,
    Complex.sin_ofReal_im]

theorem Good.exp (hf : Good F p δ v f Df f') (hv : 0 < v.dim) (hw : (Form.un .exp f).WF) :
    ∃ F', Good F p δ v (.un .exp f) (dExp f Df) F' := by
  have he : f.dim % 2 = 0 := eq_of_beq hw.2.1
  obtain ⟨_, hre⟩ := hf.real (WF_even (by tauto) hf.wf he)
  obtain ⟨_, him⟩ := hf.imag (WF_even (by tauto) hf.wf he)
  obtain ⟨_, habs⟩ := hre.rexp hv
  obtain ⟨_, hcos⟩ := him.rcos hv
  obtain ⟨_, hsin⟩ := him.rsin hv
  obtain ⟨_, h1⟩ := habs.rmul hcos rfl
  obtain ⟨_, h2⟩ := habs.rmul hsin rfl
  obtain ⟨_, h3⟩ := h1.ofReal (WF_of (by tauto) h1.wf)
  obtain ⟨_, h4⟩ := h2.ofImag (WF_of (by tauto) h2.wf)
  obtain ⟨_, h5⟩ := h3.radd h4 rfl
  have hd : (Form.bin .rmul (.un .rexp (.un .real f)) (.un .rcos (.un .imag f))).dim = f.dim / 2 := max_self _
  have hd' : (Form.bin .rmul (.un .rexp (.un .real f)) (.un .rsin (.un .imag f))).dim = f.dim / 2 := max_self _
  have hdim : ∀ {a b : Form}, a.dim = f.dim / 2 → b.dim = f.dim / 2 →
      (Form.bin .radd (.un .ofReal a) (.un .ofImag b)).dim = f.dim := fun {a b} ha hb => by
    show max (2 * a.dim) (2 * b.dim) = _; omega
  have key : dExp f Df = dRadd (Form.un .ofReal (.bin .rmul (.un .rexp (.un .real f)) (.un .rcos (.un .imag f)))).dim
      (Form.un .ofImag (.bin .rmul (.un .rexp (.un .real f)) (.un .rsin (.un .imag f)))).dim
      (dOfReal (dRmul (.un .rexp (.un .real f)) (.un .rcos (.un .imag f))
        (dTerm (.un .rexp (.un .real f)) (dReal Df)) (dTerm (.un .dcos (.un .imag f)) (dImag Df))))
      (dOfImag (dRmul (.un .rexp (.un .real f)) (.un .rsin (.un .imag f))
        (dTerm (.un .rexp (.un .real f)) (dReal Df)) (dTerm (.un .rcos (.un .imag f)) (dImag Df)))) := by
    rw [show (Form.un .ofReal (.bin .rmul (.un .rexp (.un .real f)) (.un .rcos (.un .imag f)))).dim =
      2 * (Form.un .real f).dim from congrArg (2 * ·) hd,
      show (Form.un .ofImag (.bin .rmul (.un .rexp (.un .real f)) (.un .rsin (.un .imag f)))).dim =
      2 * (Form.un .real f).dim from congrArg (2 * ·) hd']
    rfl
  rw [key]
  refine ⟨_, h5.of_eq hw ⟨hf.defined, trivial⟩ (hdim hd hd').symm ?_⟩
  intro q i hi
  rw [hdim hd hd'] at hi
  rw [radd_parts (hd.trans hd'.symm) i (by rw [hd]; omega)]
  show store (fun k => Complex.exp (cplx (f.val (F q)) k)) i = store _ i
  have hz : ∀ k < f.dim / 2, Complex.exp (cplx (f.val (F q)) k) =
      ⟨(Form.bin .rmul (.un .rexp (.un .real f)) (.un .rcos (.un .imag f))).val (F q) k,
        (Form.bin .rmul (.un .rexp (.un .real f)) (.un .rsin (.un .imag f))).val (F q) k⟩ := fun k hk => by
    rw [rmul_val (a := .un .rexp (.un .real f)) (b := .un .rcos (.un .imag f)) rfl hk,
      rmul_val (a := .un .rexp (.un .real f)) (b := .un .rsin (.un .imag f)) rfl hk]
    apply Complex.ext
    · rw [Complex.exp_re]; rfl
    · rw [Complex.exp_im]; rfl
  simp only [store]
  rw [hz (i / 2) (by omega)]

theorem bcast_of_lt {d : Nat} {x : Vec} {k : Nat} (h : 2 * k < d) : bcast d x k = cplx x k := by
  rw [bcast_eq]
  congr 1
  unfold pos
  split_ifs <;> omega

theorem Good.sqAbs (hf : Good F p δ v f Df f') (hw : (Form.un .sqAbs f).WF) :
    ∃ F', Good F p δ v (.un .sqAbs f) (dSqAbs f Df) F' := by
  have he : f.dim % 2 = 0 := eq_of_beq hw.2.1
  obtain ⟨_, h1⟩ := hf.conj (WF_even (by tauto) hf.wf he)
  have ha : Bin.mul.accept f.dim f.dim = true := by simp [Bin.accept, he]
  obtain ⟨_, h2⟩ := hf.mul h1 ⟨hf.wf, h1.wf, ha⟩
  have hd : (Form.bin .mul f (.un .conj f)).dim = f.dim := max_self _
  obtain ⟨_, h3⟩ := h2.real (WF_even (by tauto) h2.wf (by rw [hd]; exact he))
  have hdim : (Form.un .real (.bin .mul f (.un .conj f))).dim = f.dim / 2 := by
    show Form.dim _ / 2 = _; rw [hd]
  refine ⟨_, h3.of_eq hw ⟨hf.defined, trivial⟩ hdim.symm ?_⟩
  intro q i hi
  rw [hdim] at hi
  show ‖cplx _ i‖ ^ 2 = (cplx (binVal .mul f.dim f.dim _ _) i).re
  simp only [binVal, cplx_store]
  rw [bcast_of_lt (by omega), bcast_of_lt (by omega)]
  simp only [Form.val, unVal, cplx_store]
  rw [Complex.mul_conj, Complex.ofReal_re, Complex.normSq_eq_norm_sq]

theorem Good.realScal (hf : Good F p δ v f Df f') (hg : Good F p δ v g Dg g') (hw : (Form.bin .realScal f g).WF) :
    ∃ F', Good F p δ v (.bin .realScal f g) (dRealScal f g Df Dg) F' := by
  have ha : (f.dim == 1 && g.dim % 2 == 0) = true := hw.2.2
  have h1 : f.dim = 1 := by simpa using (Bool.and_eq_true_iff.mp ha).1
  have h2 : g.dim % 2 = 0 := by simpa using (Bool.and_eq_true_iff.mp ha).2
  have hpos := hg.wf.pos
  obtain ⟨_, h3⟩ := hf.ofReal (WF_of (by tauto) hf.wf)
  have hfd : (Form.un .ofReal f).dim = 2 := by show 2 * f.dim = 2; omega
  have hmax : max 2 g.dim = g.dim := by omega
  have hmin : min 2 g.dim = 2 := by omega
  obtain ⟨_, h4⟩ := h3.mul hg ⟨h3.wf, hg.wf, by rw [hfd]; simp [Bin.accept, hmax, hmin, h2]⟩
  have hdim : (Form.bin .mul (.un .ofReal f) g).dim = g.dim := by
    show max (Form.un .ofReal f).dim g.dim = _; omega
  refine ⟨_, h4.of_eq hw ⟨hf.defined, hg.defined, trivial⟩ hdim.symm ?_⟩
  intro q i hi
  rw [hdim] at hi
  show store (fun k => (f.val (F q) 0 : ℂ) * cplx (g.val (F q)) k) i =
    store (fun k => bcast (Form.un .ofReal f).dim _ k * bcast g.dim _ k) i
  simp only [store]
  rw [bcast_of_lt (d := g.dim) (by omega), hfd]
  unfold bcast
  rw [if_pos rfl]
  simp only [Form.val, unVal, cplx_store]

/-! ## Variables and constants -/

theorem Good.zero {d : Nat} (hd : 0 < d) (hv : 0 < v.dim) :
    Good F p δ v (.zero d) (Form.diffT v (.zero d)) fun _ => 0 where
  wf := hd
  defined := trivial
  deriv := fun k _ => hasFDerivAt_const _ _
  adj := fun {η r} _ _ _ h => by
    obtain rfl := Except.ok.inj h
    refine ⟨hv, trivial, rfl, ?_⟩
    simp [ip, Form.val]

theorem Good.var {i : Int} {d : Nat} {c : Int} {δ' : Int → Nat → (E →L[ℝ] ℝ)} (hd : 0 < d) (hv : 0 < v.dim)
    (hδ : ∀ i k, HasFDerivAt (fun q => F q i k) (δ' i k) p) (h0 : ∀ i k, i ≠ v.ind → δ' i k = 0)
    (hu : i = v.ind → (d, c) = (v.dim, v.cat)) :
    Good F p (δ' v.ind) v (.var i d c) (Form.diffT v (.var i d c)) (δ' i) where
  wf := hd
  defined := trivial
  deriv := fun k _ => hδ i k
  adj := fun {η r} h1 h2 h3 h => by
    obtain rfl := Except.ok.inj h
    by_cases hi : i = v.ind
    · have hdc := hu hi
      have hd' : d = v.dim := congrArg Prod.fst hdc
      have hc' : c = v.cat := congrArg Prod.snd hdc
      rw [if_pos ⟨hi, hd', hc'⟩]
      refine ⟨h1, h2, h3.trans hd', ?_⟩
      rw [hi, ← hd']
      rfl
    · rw [if_neg fun h => hi h.1]
      refine ⟨hv, trivial, rfl, ?_⟩
      show ip _ (fun _ => (0 : ℝ)) _ = _
      simp only [ip, zero_smul, sum_const_zero, h0 i _ hi, smul_zero]

theorem Form.good {δ' : Int → Nat → (E →L[ℝ] ℝ)} (hv : 0 < v.dim)
    (hδ : ∀ i k, HasFDerivAt (fun q => F q i k) (δ' i k) p) (h0 : ∀ i k, i ≠ v.ind → δ' i k = 0) :
    ∀ f : Form, f.WF → f.Direct → f.Uses v → f.Smooth (F p) →
      ∃ F', Good F p (δ' v.ind) v f (f.diffT v) F'
  | .var i d c, hw, _, hu, _ => ⟨_, Good.var hw hv hδ h0 (hu (i, d, c) (List.mem_singleton.mpr rfl))⟩
  | .zero d, hw, _, _, _ => ⟨_, Good.zero hw hv⟩
  | .un o f, hw, hd, hu, hs => by
    obtain ⟨f', hf⟩ := Form.good hv hδ h0 f hw.1 hd.1 hu hs.1
    have hs := hs.2
    cases o with
    | conj => exact hf.conj hw
    | real => exact hf.real hw
    | imag => exact hf.imag hw
    | ofReal => exact hf.ofReal hw
    | ofImag => exact hf.ofImag hw
    | sqAbs => exact hf.sqAbs hw
    | sum => exact hf.sum hw
    | sumT n => exact hf.sumT hw
    | exp => exact hf.exp hv hw
    | exp1j => exact hf.exp1j hv
    | rexp => exact hf.rexp hv
    | rcos => exact hf.rcos hv
    | rsin => exact hf.rsin hv
    | rinv => exact hf.rinv hv hs
    | rsqrt => exact hf.rsqrt hv hs
    | rneg => exact hf.rneg
    | rsquare => exact absurd trivial hd.2
    | dcos => exact absurd trivial hd.2
    | dinv => exact absurd trivial hd.2
    | dsqrt => exact absurd trivial hd.2
  | .bin o f g, hw, hd, hu, hs => by
    obtain ⟨f', hf⟩ := Form.good hv hδ h0 f hw.1 hd.1 (fun q hq => hu q (List.mem_append_left _ hq)) hs.1
    obtain ⟨g', hg⟩ := Form.good hv hδ h0 g hw.2.1 hd.2.1 (fun q hq => hu q (List.mem_append_right _ hq)) hs.2.1
    have hs := hs.2.2
    have hr := hd.2.2.2
    cases o with
    | add => exact hf.addSub (.inl rfl) hg hw
    | sub => exact hf.addSub (.inr rfl) hg hw
    | mul => exact hf.mul hg hw
    | realScal => exact hf.realScal hg hw
    | radd => exact hf.radd hg (hr trivial)
    | rmul => exact hf.rmul hg (hr trivial)
    | ratan2 =>
      have hr := hr trivial
      refine hf.ratan2 hg hr hv fun k hk => ?_
      have := hs k (by omega)
      rwa [cst_of_lt _ (by omega), cst_of_lt _ hk] at this
    | rsub => exact absurd trivial hd.2.2.1
    | rdiv => exact absurd trivial hd.2.2.1
    | datan2f => exact absurd trivial hd.2.2.1
    | datan2g => exact absurd trivial hd.2.2.1

end

end Verif.Cplx
