import Verif.Proofs.ComplexGrad

/-!
# When gradients of complex operations exist: helper lemmas
-/

namespace Verif.Cplx

open Spec

variable {v : VarId} {f g : Form} {Df Dg : Diff} {m : Nat}

/-- A gradient with respect to `v`, or a `KeOps_Error`, which is only raised if the dimension of `v` is odd. -/
def Res (v : VarId) : Except Err Form → Prop
  | .ok r => r.WF ∧ r.dim = v.dim
  | .error e => e = .keops ∧ v.dim % 2 = 1

/-- The method `D` of the formula `f` returns such results. -/
structure Tot (v : VarId) (f : Form) (D : Diff) : Prop where
  wf : f.WF
  adj : ∀ {η : Form}, η.WF → η.dim = f.dim → Res v (D η)

theorem Res.bind {x : Except Err Form} (hx : Res v x) {k : Form → Except Err Form}
    (h : ∀ r, r.WF → r.dim = v.dim → Res v (k r)) : Res v (x >>= k) := by
  cases x with
  | error e => exact hx
  | ok r => exact h r hx.1 hx.2

theorem Res.bin {o : Bin} {x y : Except Err Form} (ho : o = .add ∨ o = .sub ∨ o = .radd) (hx : Res v x) (hy : Res v y) :
    Res v (x >>= fun a => y >>= fun b => mkBin o a b) := by
  refine hx.bind fun a ha ha' => hy.bind fun b hb hb' => ?_
  unfold mkBin
  split_ifs with h
  · refine ⟨⟨ha, hb, h⟩, ?_⟩
    show o.dim a.dim b.dim = _
    rcases ho with rfl | rfl | rfl <;> (simp only [Bin.dim]; omega)
  · refine ⟨rfl, ?_⟩
    rcases ho with rfl | rfl | rfl <;> (simp [Bin.accept, ha', hb'] at h; try omega)

theorem Res.odd {o : Bin} {x y : Except Err Form} (ho : o = .add ∨ o = .sub) (hx : Res v x) (hy : Res v y)
    (hv : v.dim % 2 = 1) : (x >>= fun a => y >>= fun b => mkBin o a b) = .error .keops := by
  cases x with
  | error e => exact congrArg Except.error hx.1
  | ok a =>
    cases y with
    | error e => exact congrArg Except.error hy.1
    | ok b =>
      show mkBin o a b = _
      refine if_neg ?_
      have ha := hx.2
      have hb := hy.2
      rcases ho with rfl | rfl <;> simp [Bin.accept, ha, hb, hv]

theorem Tot.of_dim {h : Form} (hf : Tot v f Df) (hw : h.WF) (hdim : h.dim = f.dim) : Tot v h Df :=
  ⟨hw, fun h1 h2 => hf.adj h1 (h2.trans hdim)⟩

theorem Tot.un {o o' : Un} {D : Diff} (hf : Tot v f Df) (hw : (Form.un o f).WF) (hD : ∀ η, D η = (do Df (← mkUn o' η)))
    (hdim : o'.dim (o.dim f.dim) = f.dim) (ha : o'.accept (o.dim f.dim) = true)
    (hn : ∀ n, o' = .sumT n → 0 < n ∧ n % 2 = 0) : Tot v (.un o f) D where
  wf := hw
  adj := fun {η} h1 h2 => by
    have h2 : η.dim = o.dim f.dim := h2
    rw [hD, mkUn_eq (by rw [h2]; exact ha)]
    exact hf.adj (η := .un o' η) ⟨h1, by rw [h2]; exact ha, hn⟩ (by show o'.dim η.dim = _; rw [h2]; exact hdim)

theorem Tot.conj (hf : Tot v f Df) (hw : (Form.un .conj f).WF) : Tot v (.un .conj f) (dConj Df) :=
  hf.un hw (o' := .conj) (fun _ => rfl) rfl hw.2.1 fun n h => by cases h

theorem Tot.real (hf : Tot v f Df) (hw : (Form.un .real f).WF) : Tot v (.un .real f) (dReal Df) :=
  hf.un hw (o' := .ofReal) (fun _ => rfl)
    (by have : f.dim % 2 = 0 := eq_of_beq hw.2.1; show 2 * (f.dim / 2) = _; omega) rfl fun n h => by cases h

theorem Tot.imag (hf : Tot v f Df) (hw : (Form.un .imag f).WF) : Tot v (.un .imag f) (dImag Df) :=
  hf.un hw (o' := .ofImag) (fun _ => rfl)
    (by have : f.dim % 2 = 0 := eq_of_beq hw.2.1; show 2 * (f.dim / 2) = _; omega) rfl fun n h => by cases h

theorem Tot.ofReal (hf : Tot v f Df) (hw : (Form.un .ofReal f).WF) : Tot v (.un .ofReal f) (dOfReal Df) :=
  hf.un hw (o' := .real) (fun _ => rfl) (by show 2 * f.dim / 2 = _; omega)
    (beq_iff_eq.mpr (by show 2 * f.dim % 2 = 0; omega)) fun n h => by cases h

theorem Tot.ofImag (hf : Tot v f Df) (hw : (Form.un .ofImag f).WF) : Tot v (.un .ofImag f) (dOfImag Df) :=
  hf.un hw (o' := .imag) (fun _ => rfl) (by show 2 * f.dim / 2 = _; omega)
    (beq_iff_eq.mpr (by show 2 * f.dim % 2 = 0; omega)) fun n h => by cases h

theorem Tot.sum (hf : Tot v f Df) (hw : (Form.un .sum f).WF) : Tot v (.un .sum f) (dSum f.dim Df) :=
  hf.un hw (o' := .sumT f.dim) (fun _ => rfl) rfl rfl fun n h => by
    cases h
    exact ⟨hf.wf.pos, eq_of_beq hw.2.1⟩

theorem Tot.sumT {n : Nat} (hf : Tot v f Df) (hw : (Form.un (.sumT n) f).WF) : Tot v (.un (.sumT n) f) (dSumT Df) :=
  hf.un hw (o' := .sum) (fun _ => rfl) (eq_of_beq hw.2.1).symm (beq_iff_eq.mpr (hw.2.2 n rfl).2) fun n h => by cases h

theorem cplx_dims {o : Bin} (ho : o = .add ∨ o = .sub ∨ o = .mul) (hw : (Form.bin o f g).WF) {η : Form}
    (h : η.dim = (Form.bin o f g).dim) : η.dim = max f.dim g.dim ∧ η.dim % 2 = 0 ∧ 0 < η.dim ∧
      (f.dim = η.dim ∨ f.dim = 2) ∧ (g.dim = η.dim ∨ g.dim = 2) := by
  obtain ⟨m, h1, h2, h3, h4, h5⟩ := accept_dims ho hw
  omega

/-- The two results that are combined by the methods of `ComplexAdd`, `ComplexSubtract` and `ComplexMult`. -/
theorem addSub_res {o : Bin} (ho : o = .add ∨ o = .sub) (hf : Tot v f Df) (hg : Tot v g Dg)
    (hw : (Form.bin o f g).WF) {η : Form} (h1 : η.WF) (h2 : η.dim = (Form.bin o f g).dim) :
    ∃ x y, Res v x ∧ Res v y ∧ dAddSub o f.dim g.dim Df Dg η = x >>= fun a => y >>= fun b => mkBin o a b := by
  obtain ⟨e1, e2, e3, e4, e5⟩ := cplx_dims (by tauto) hw h2
  have hs : (Form.un .sum η).WF := WF_even (by tauto) h1 e2
  have hsum : mkUn .sum η = .ok (.un .sum η) := mkUn_eq hs.2.1
  unfold dAddSub
  split_ifs with c1 c2
  · refine ⟨Df (.un .sum η), Dg η, hf.adj hs (by show 2 = _; omega), hg.adj h1 (by omega), ?_⟩
    rw [hsum]; rfl
  · refine ⟨Df η, Dg (.un .sum η), hf.adj h1 (by omega), hg.adj hs (by show 2 = _; omega), ?_⟩
    rw [hsum]; rfl
  · exact ⟨Df η, Dg η, hf.adj h1 (by omega), hg.adj h1 (by omega), rfl⟩

theorem Tot.addSub {o : Bin} (ho : o = .add ∨ o = .sub) (hf : Tot v f Df) (hg : Tot v g Dg)
    (hw : (Form.bin o f g).WF) : Tot v (.bin o f g) (dAddSub o f.dim g.dim Df Dg) where
  wf := hw
  adj := fun h1 h2 => by
    obtain ⟨x, y, hx, hy, h⟩ := addSub_res ho hf hg hw h1 h2
    rw [h]
    exact hx.bin (by tauto) hy

theorem mul_res (hf : Tot v f Df) (hg : Tot v g Dg) (hw : (Form.bin .mul f g).WF) {η : Form} (h1 : η.WF)
    (h2 : η.dim = (Form.bin .mul f g).dim) :
    ∃ x y, Res v x ∧ Res v y ∧ dMul f g Df Dg η = x >>= fun a => y >>= fun b => mkBin .add a b := by
  obtain ⟨e1, e2, e3, e4, e5⟩ := cplx_dims (by tauto) hw h2
  have hc : ∀ {u : Form}, u.WF → (u.dim = η.dim ∨ u.dim = 2) → mkUn .conj u = .ok (.un .conj u) ∧
      mkBin .mul (.un .conj u) η = .ok (.bin .mul (.un .conj u) η) ∧ (Form.bin .mul (.un .conj u) η).WF ∧
      (Form.bin .mul (.un .conj u) η).dim = η.dim ∧
      mkUn .sum (.bin .mul (.un .conj u) η) = .ok (.un .sum (.bin .mul (.un .conj u) η)) ∧
      (Form.un .sum (.bin .mul (.un .conj u) η)).WF := by
    intro u hu hd
    have w1 : (Form.un .conj u).WF := WF_even (by tauto) hu (by omega)
    have hd' : (Form.un .conj u).dim = u.dim := rfl
    have a2 : Bin.mul.accept (Form.un .conj u).dim η.dim = true := by
      have b1 : max u.dim η.dim % 2 = 0 := by omega
      have b2 : u.dim = η.dim ∨ min u.dim η.dim = 2 := by omega
      simp [hd', Bin.accept, b1, b2]
    have w2 : (Form.bin .mul (.un .conj u) η).WF := ⟨w1, h1, a2⟩
    have hd2 : (Form.bin .mul (.un .conj u) η).dim = η.dim := by show max u.dim η.dim = _; omega
    have w3 : (Form.un .sum (.bin .mul (.un .conj u) η)).WF := WF_even (by tauto) w2 (by omega)
    exact ⟨mkUn_eq w1.2.1, mkBin_eq a2, w2, hd2, mkUn_eq w3.2.1, w3⟩
  obtain ⟨f1, f2, f3, f4, f5, f6⟩ := hc hf.wf e4
  obtain ⟨g1, g2, g3, g4, g5, g6⟩ := hc hg.wf e5
  unfold dMul
  rw [f1, g1]
  split_ifs with c1 c2
  · refine ⟨Df (.un .sum (.bin .mul (.un .conj g) η)), Dg (.bin .mul (.un .conj f) η),
      hf.adj g6 (by show 2 = _; omega), hg.adj f3 (by omega), ?_⟩
    simp only [bind, Except.bind, g2, g5, f2]
  · refine ⟨Df (.bin .mul (.un .conj g) η), Dg (.un .sum (.bin .mul (.un .conj f) η)),
      hf.adj g3 (by omega), hg.adj f6 (by show 2 = _; omega), ?_⟩
    simp only [bind, Except.bind, g2, f5, f2]
  · refine ⟨Df (.bin .mul (.un .conj g) η), Dg (.bin .mul (.un .conj f) η),
      hf.adj g3 (by omega), hg.adj f3 (by omega), ?_⟩
    simp only [bind, Except.bind, g2, f2]

theorem Tot.mul (hf : Tot v f Df) (hg : Tot v g Dg) (hw : (Form.bin .mul f g).WF) :
    Tot v (.bin .mul f g) (dMul f g Df Dg) where
  wf := hw
  adj := fun h1 h2 => by
    obtain ⟨x, y, hx, hy, h⟩ := mul_res hf hg hw h1 h2
    rw [h]
    exact hx.bin (by tauto) hy

theorem rmul_ok {a b : Form} (h : a.dim = b.dim) (ha : a.WF) (hb : b.WF) :
    mkBin .rmul a b = .ok (.bin .rmul a b) ∧ (Form.bin .rmul a b).WF ∧ (Form.bin .rmul a b).dim = a.dim := by
  have : Bin.rmul.accept a.dim b.dim = true := by rw [h]; exact (real_accept (by simp) _).1
  exact ⟨mkBin_eq this, ⟨ha, hb, this⟩, by show max a.dim b.dim = _; omega⟩

theorem Tot.term {df : Form} (hf : Tot v f Df) (hv : 0 < v.dim) (hd : df.WF) (hdim : df.dim = f.dim) {η : Form}
    (h1 : η.WF) (h2 : η.dim = f.dim) : Res v (dTerm df Df η) := by
  unfold dTerm
  by_cases h : df.dim = 1
  · rw [if_pos h]
    refine (hf.adj h1 h2).bind fun r hr hr' => ?_
    have : Bin.rmul.accept r.dim df.dim = true := by
      have : min v.dim 1 = 1 := by omega
      simp [h, hr', Bin.accept, this]
    rw [mkBin_eq this]
    exact ⟨⟨hr, hd, this⟩, by show max r.dim df.dim = _; omega⟩
  · rw [if_neg h]
    obtain ⟨k1, k2, k3⟩ := rmul_ok (h2.trans hdim.symm) h1 hd
    rw [k1]
    exact hf.adj k2 (k3.trans h2)

theorem Tot.realUn {o o' : Un} (ho : o.isReal = true) (ho' : o'.isReal = true) (hf : Tot v f Df) (hv : 0 < v.dim) :
    Tot v (.un o f) (dTerm (.un o' f) Df) := by
  have W : ∀ o : Un, o.isReal = true → o.dim f.dim = f.dim := fun o h => by
    cases o <;> first | exact Bool.noConfusion h | exact rfl
  exact ⟨WF_real ho hf.wf, fun h1 h2 => hf.term hv (WF_real ho' hf.wf) (W o' ho') h1 (h2.trans (W o ho))⟩

theorem Tot.rneg (hf : Tot v f Df) : Tot v (.un .rneg f) (dNeg Df) :=
  ⟨⟨hf.wf, rfl, fun n h => by cases h⟩, fun h1 h2 => (hf.adj h1 h2).bind fun r hr hd =>
    ⟨⟨hr, rfl, fun n h => by cases h⟩, hd⟩⟩

theorem Tot.radd (hf : Tot v f Df) (hg : Tot v g Dg) (hd : f.dim = g.dim) :
    Tot v (.bin .radd f g) (dRadd f.dim g.dim Df Dg) where
  wf := ⟨hf.wf, hg.wf, by rw [← hd]; exact (real_accept (by simp) _).1⟩
  adj := fun {η} h1 h2 => by
    have h2 : η.dim = max f.dim g.dim := h2
    unfold dRadd
    rw [if_pos hd]
    exact (hf.adj h1 (by omega)).bin (by tauto) (hg.adj h1 (by omega))

theorem Tot.rmul (hf : Tot v f Df) (hg : Tot v g Dg) (hd : f.dim = g.dim) :
    Tot v (.bin .rmul f g) (dRmul f g Df Dg) where
  wf := ⟨hf.wf, hg.wf, by rw [← hd]; exact (real_accept (by simp) _).1⟩
  adj := fun {η} h1 h2 => by
    have h2 : η.dim = max f.dim g.dim := h2
    unfold dRmul
    rw [if_pos hd]
    obtain ⟨k1, k2, k3⟩ := rmul_ok (show g.dim = η.dim by omega) hg.wf h1
    obtain ⟨l1, l2, l3⟩ := rmul_ok (show f.dim = η.dim by omega) hf.wf h1
    rw [k1, l1]
    exact (hf.adj k2 (by omega)).bin (by tauto) (hg.adj l2 (by omega))

theorem Tot.ratan2 (hf : Tot v f Df) (hg : Tot v g Dg) (hd : f.dim = g.dim) (hv : 0 < v.dim) :
    Tot v (.bin .ratan2 f g) (dRatan2 f g Df Dg) where
  wf := ⟨hf.wf, hg.wf, by rw [← hd]; exact (real_accept (by simp) _).1⟩
  adj := fun {η} h1 h2 => by
    have h2 : η.dim = max f.dim g.dim := h2
    unfold dRatan2
    rw [if_pos hd]
    have w : ∀ {o : Bin}, o = .datan2f ∨ o = .datan2g → (Form.bin o f g).WF ∧ (Form.bin o f g).dim = f.dim := by
      intro o ho
      have := real_accept (o := o) (by tauto) f.dim
      exact ⟨⟨hf.wf, hg.wf, by rw [← hd]; exact this.1⟩, by
        show o.dim f.dim g.dim = _
        rw [← hd]; exact this.2⟩
    exact (hf.term hv (w (by tauto)).1 (w (by tauto)).2 h1 (by omega)).bin (by tauto)
      (hg.term hv (w (by tauto)).1 ((w (by tauto)).2.trans hd) h1 (by omega))

theorem Tot.exp1j (hf : Tot v f Df) (hv : 0 < v.dim) : Tot v (.un .exp1j f) (dExp1j f Df) := by
  have h1 := hf.realUn (o := .rcos) (o' := .dcos) rfl rfl hv
  have h2 := hf.realUn (o := .rsin) (o' := .rcos) rfl rfl hv
  have h3 := (h1.ofReal (WF_of (by tauto) h1.wf)).radd (h2.ofImag (WF_of (by tauto) h2.wf)) rfl
  exact h3.of_dim ⟨hf.wf, rfl, fun n h => by cases h⟩ (max_self _).symm

theorem Tot.exp (hf : Tot v f Df) (hv : 0 < v.dim) (hw : (Form.un .exp f).WF) : Tot v (.un .exp f) (dExp f Df) := by
  have he : f.dim % 2 = 0 := eq_of_beq hw.2.1
  have hre := hf.real (WF_even (by tauto) hf.wf he)
  have him := hf.imag (WF_even (by tauto) hf.wf he)
  have habs := hre.realUn (o := .rexp) (o' := .rexp) rfl rfl hv
  have hcos := him.realUn (o := .rcos) (o' := .dcos) rfl rfl hv
  have hsin := him.realUn (o := .rsin) (o' := .rcos) rfl rfl hv
  have h1 := habs.rmul hcos rfl
  have h2 := habs.rmul hsin rfl
  have hd : (Form.bin .rmul (.un .rexp (.un .real f)) (.un .rcos (.un .imag f))).dim = f.dim / 2 := max_self _
  have hd' : (Form.bin .rmul (.un .rexp (.un .real f)) (.un .rsin (.un .imag f))).dim = f.dim / 2 := max_self _
  have h3 := (h1.ofReal (WF_of (by tauto) h1.wf)).radd (h2.ofImag (WF_of (by tauto) h2.wf)) rfl
  rw [show (Form.un .ofReal (.bin .rmul (.un .rexp (.un .real f)) (.un .rcos (.un .imag f)))).dim =
      2 * (Form.un .real f).dim from congrArg (2 * ·) hd,
    show (Form.un .ofImag (.bin .rmul (.un .rexp (.un .real f)) (.un .rsin (.un .imag f)))).dim =
      2 * (Form.un .real f).dim from congrArg (2 * ·) hd'] at h3
  refine h3.of_dim hw ?_
  show f.dim = max (2 * Form.dim _) (2 * Form.dim _)
  rw [hd, hd']
  omega

theorem Tot.sqAbs (hf : Tot v f Df) (hw : (Form.un .sqAbs f).WF) : Tot v (.un .sqAbs f) (dSqAbs f Df) := by
  have he : f.dim % 2 = 0 := eq_of_beq hw.2.1
  have h1 := hf.conj (WF_even (by tauto) hf.wf he)
  have ha : Bin.mul.accept f.dim f.dim = true := by simp [Bin.accept, he]
  have h2 := hf.mul h1 ⟨hf.wf, h1.wf, ha⟩
  have hd : (Form.bin .mul f (.un .conj f)).dim = f.dim := max_self _
  refine (h2.real (WF_even (by tauto) h2.wf (by rw [hd]; exact he))).of_dim hw ?_
  show f.dim / 2 = Form.dim _ / 2
  rw [hd]

theorem Tot.realScal (hf : Tot v f Df) (hg : Tot v g Dg) (hw : (Form.bin .realScal f g).WF) :
    Tot v (.bin .realScal f g) (dRealScal f g Df Dg) := by
  have ha : (f.dim == 1 && g.dim % 2 == 0) = true := hw.2.2
  have h1 : f.dim = 1 := by simpa using (Bool.and_eq_true_iff.mp ha).1
  have h2 : g.dim % 2 = 0 := by simpa using (Bool.and_eq_true_iff.mp ha).2
  have hpos := hg.wf.pos
  have h3 := hf.ofReal (WF_of (by tauto) hf.wf)
  have hfd : (Form.un .ofReal f).dim = 2 := by show 2 * f.dim = 2; omega
  have hmax : max 2 g.dim = g.dim := by omega
  have hmin : min 2 g.dim = 2 := by omega
  refine (h3.mul hg ⟨h3.wf, hg.wf, by rw [hfd]; simp [Bin.accept, hmax, hmin, h2]⟩).of_dim hw ?_
  show g.dim = max (Form.un .ofReal f).dim g.dim
  omega

theorem Form.tot (hv : 0 < v.dim) : ∀ f : Form, f.WF → f.Direct → Tot v f (f.diffT v)
  | .var i d c, hw, _ => ⟨hw, fun {η} h1 h2 => by
    have h2 : η.dim = d := h2
    show Res v (.ok (if _ then _ else _))
    split_ifs with h
    · exact ⟨h1, by omega⟩
    · exact ⟨hv, rfl⟩⟩
  | .zero d, hw, _ => ⟨hw, fun _ _ => ⟨hv, rfl⟩⟩
  | .un o f, hw, hd => by
    have hf := Form.tot hv f hw.1 hd.1
    cases o with
    | conj => exact hf.conj hw
    | real => exact hf.real hw
    | imag => exact hf.imag hw
    | ofReal => exact hf.ofReal hw
    | ofImag => exact hf.ofImag hw
    | sqAbs => exact hf.sqAbs hw
    | sum => exact hf.sum hw
    | sumT n => exact hf.sumT hw
    | exp => exact hf.exp hv hw
    | exp1j => exact hf.exp1j hv
    | rexp => exact hf.realUn rfl rfl hv
    | rcos => exact hf.realUn rfl rfl hv
    | rsin => exact hf.realUn rfl rfl hv
    | rinv => exact hf.realUn rfl rfl hv
    | rsqrt => exact hf.realUn rfl rfl hv
    | rneg => exact hf.rneg
    | rsquare => exact absurd trivial hd.2
    | dcos => exact absurd trivial hd.2
    | dinv => exact absurd trivial hd.2
    | dsqrt => exact absurd trivial hd.2
  | .bin o f g, hw, hd => by
    have hf := Form.tot hv f hw.1 hd.1
    have hg := Form.tot hv g hw.2.1 hd.2.1
    have hr := hd.2.2.2
    cases o with
    | add => exact hf.addSub (.inl rfl) hg hw
    | sub => exact hf.addSub (.inr rfl) hg hw
    | mul => exact hf.mul hg hw
    | realScal => exact hf.realScal hg hw
    | radd => exact hf.radd hg (hr trivial)
    | rmul => exact hf.rmul hg (hr trivial)
    | ratan2 => exact hf.ratan2 hg (hr trivial) hv
    | rsub => exact absurd trivial hd.2.2.1
    | rdiv => exact absurd trivial hd.2.2.1
    | datan2f => exact absurd trivial hd.2.2.1
    | datan2g => exact absurd trivial hd.2.2.1

end Verif.Cplx
