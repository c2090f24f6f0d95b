import Verif.Proofs.Degree
import Verif.Proofs.DiffT

/-!
# Linear formulas and their adjoints
-/

namespace Verif

open Spec Finset

/-- The two inputs differ at most at the index `w`. -/
def Off (w : Int) (env env' : Env) : Prop := ∀ i, i ≠ w → env i = env' i

section Free

variable {w : Int} {env env' : Env} {e : Expr}

theorem Off.symm (h : Off w env env') : Off w env' env := fun i hi => (h i hi).symm

theorem Off.update (h : Off w env env') (i : Int) (x : Vec) :
    Off w (Function.update env i x) (Function.update env' i x) := by
  intro j hj
  by_cases hi : j = i
  · subst hi; simp
  · simp [Function.update_of_ne hi, h j hj]

theorem Expr.deg_un_zero {w : Mark} {o : Un} {f : Expr} (h : (Expr.un o f).deg w = 0) : f.deg w = 0 := by
  unfold Expr.deg at h; split_ifs at h <;> omega

theorem Expr.deg_bin_zero {w : Mark} {o : Bin} {f g : Expr} (h : (Expr.bin o f g).deg w = 0) :
    f.deg w = 0 ∧ g.deg w = 0 := by
  cases o <;> simp only [Expr.deg] at h <;> omega

theorem Expr.deg_tern_zero {w : Mark} {o : Tern} {f g k : Expr} (h : (Expr.tern o f g k).deg w = 0) :
    f.deg w = 0 ∧ g.deg w = 0 ∧ k.deg w = 0 := by
  cases o <;> simp only [Expr.deg] at h <;> omega

theorem Expr.deg_fact_zero {w : Mark} {i c : Int} {d : Nat} {f g : Expr} (h : (Expr.fact i d c f g).deg w = 0) :
    f.deg w = 0 ∧ g.deg w = 0 := by
  simp only [Expr.deg] at h; omega

/-- The value does not depend on variables that do not occur. -/
theorem Expr.val_free (hd : e.deg w = 0) (h : Off w env env') : e.val env = e.val env' := by
  induction e generalizing env env' with
  | var i d c =>
    have : i ≠ w := fun hi => by simp [Expr.deg, hi] at hd
    simp only [Expr.val, h i this]
  | zero | int | rat => rfl
  | un o f ih => simp only [Expr.val, ih (deg_un_zero hd) h]
  | bin o f g i1 i2 => simp only [Expr.val, i1 (deg_bin_zero hd).1 h, i2 (deg_bin_zero hd).2 h]
  | tern o f g k i1 i2 i3 =>
    obtain ⟨h1, h2, h3⟩ := deg_tern_zero hd
    simp only [Expr.val, i1 h1 h, i2 h2 h, i3 h3 h]
  | fact i d c f g i1 i2 =>
    obtain ⟨h1, h2⟩ := deg_fact_zero hd
    simp only [Expr.val, i2 h2 h]
    exact i1 h1 (h.update _ _)

/-- Same for the domain. -/
theorem Expr.dom_free {Δ : Domain} (hd : e.deg w = 0) (h : Off w env env') (hD : e.Dom Δ env) :
    e.Dom Δ env' := by
  induction e generalizing env env' with
  | var i d c => exact hD
  | zero | int | rat => trivial
  | un o f ih =>
    have := deg_un_zero hd
    exact ⟨ih this h hD.1, val_free this h ▸ hD.2⟩
  | bin o f g i1 i2 =>
    obtain ⟨h1, h2⟩ := deg_bin_zero hd
    exact ⟨i1 h1 h hD.1, i2 h2 h hD.2.1, val_free h1 h ▸ val_free h2 h ▸ hD.2.2⟩
  | tern o f g k i1 i2 i3 =>
    obtain ⟨h1, h2, h3⟩ := deg_tern_zero hd
    exact ⟨i1 h1 h hD.1, i2 h2 h hD.2.1, i3 h3 h hD.2.2.1,
      val_free h1 h ▸ val_free h2 h ▸ val_free h3 h ▸ hD.2.2.2⟩
  | fact i d c f g i1 i2 =>
    obtain ⟨h1, h2⟩ := deg_fact_zero hd
    exact ⟨hD.1, i2 h2 h hD.2.1, val_free h2 h ▸ i1 h1 (h.update _ _) hD.2.2⟩

/-- Operations are only applied outside linear operations to values that do not depend on the variable. -/
theorem Expr.dom_off (hd : e.deg w ≤ 1) (h : Off w env env') (hD : e.Dom .defined env) :
    e.Dom .defined env' := by
  induction e with
  | var i d c => exact hD
  | zero | int | rat => trivial
  | un o f ih =>
    by_cases ho : o.linear
    · refine ⟨ih (by simpa [Expr.deg, ho] using hd) hD.1, ?_⟩
      have := hD.2
      cases o <;> first | (cases ho; done) | trivial | exact this
    · have : f.deg w = 0 := by simp [Expr.deg, ho] at hd; omega
      exact dom_free (e := .un o f) (by simp [Expr.deg, this]) h hD
  | bin o f g i1 i2 =>
    by_cases h0 : f.deg w = 0 ∧ g.deg w = 0
    · exact dom_free (e := .bin o f g) (by cases o <;> simp [Expr.deg, h0]) h hD
    · have hh : f.deg w ≤ 1 ∧ g.deg w ≤ 1 := by
        cases o <;> simp only [Expr.deg] at hd <;> omega
      refine ⟨i1 hh.1 hD.1, i2 hh.2 hD.2.1, ?_⟩
      have h2 := hD.2.2
      cases o <;> first
        | trivial
        | (simp only [Expr.deg] at hd
           have hg : g.deg w = 0 := by omega
           exact val_free hg h ▸ h2)
        | (exfalso; simp only [Expr.deg] at hd; omega)
  | tern o f g k i1 i2 i3 =>
    cases o with
    | ifElse =>
      simp only [Expr.deg] at hd
      exact ⟨i1 (by omega) hD.1, i2 (by omega) hD.2.1, i3 (by omega) hD.2.2.1, trivial⟩
    | clamp | mod =>
      refine dom_free (e := .tern _ f g k) ?_ h hD
      simp only [Expr.deg] at hd ⊢; omega
  | fact i d c f g i1 i2 =>
    refine dom_free (e := .fact i d c f g) ?_ h hD
    simp only [Expr.deg, reduceCtorEq, if_false] at hd ⊢; omega

variable {v : VarId}

/-- A formula accepted as linear in a variable that does not occur vanishes. -/
theorem Expr.val_zero (hl : e.isLinear v = true) (hd : e.deg v.ind = 0) (env : Env) :
    e.val env = fun _ => 0 := by
  induction e with
  | var i d c =>
    simp only [Expr.isLinear, decide_eq_true_eq] at hl
    subst hl
    simp [Expr.deg] at hd
  | zero => rfl
  | int | rat => cases hl
  | un o f ih =>
    simp only [Expr.isLinear, Bool.and_eq_true] at hl
    have := ih hl.2 (deg_un_zero hd)
    funext k
    cases o <;> first
      | (cases hl.1; done)
      | simp [Expr.val, unVal, this, cst]
  | bin o f g i1 i2 =>
    obtain ⟨h1, h2⟩ := deg_bin_zero hd
    funext k
    cases o <;> simp only [Expr.isLinear, Bool.and_eq_true, bne_iff_ne, ne_eq] at hl <;> first
      | (cases hl; done)
      | simp [Expr.val, binVal, i1 hl.1 h1, i2 hl.2 h2, cst]
      | simp [Expr.val, binVal, i1 hl h1, cst]
      | (have : f.isLinear v = true ∨ g.isLinear v = true := by
           cases hf : f.isLinear v <;> cases hg : g.isLinear v <;> simp_all
         rcases this with hf | hg
         · simp [Expr.val, binVal, i1 hf h1, cst]
         · simp [Expr.val, binVal, i2 hg h2, cst])
  | tern | fact => cases hl

/-- In a product accepted as linear, one factor is linear and either it vanishes or the other one does
not depend on the variable. -/
theorem linear_factor {f g : Expr} (hl : (f.isLinear v != g.isLinear v) = true)
    (hd : f.deg v.ind + g.deg v.ind ≤ 1) (h : Off v.ind env env') :
    (f.isLinear v = true ∧ ((∀ k, f.val env k = 0 ∧ f.val env' k = 0) ∨ g.val env = g.val env')) ∨
    (g.isLinear v = true ∧ ((∀ k, g.val env k = 0 ∧ g.val env' k = 0) ∨ f.val env = f.val env')) := by
  have : f.isLinear v = true ∨ g.isLinear v = true := by
    cases hf : f.isLinear v <;> cases hg : g.isLinear v <;> simp_all
  rcases this with hf | hg
  · refine .inl ⟨hf, ?_⟩
    by_cases h0 : f.deg v.ind = 0
    · exact .inl fun k => ⟨congrFun (f.val_zero hf h0 env) k, congrFun (f.val_zero hf h0 env') k⟩
    · exact .inr (g.val_free (by omega) h)
  · refine .inr ⟨hg, ?_⟩
    by_cases h0 : g.deg v.ind = 0
    · exact .inl fun k => ⟨congrFun (g.val_zero hg h0 env) k, congrFun (g.val_zero hg h0 env') k⟩
    · exact .inr (f.val_free (by omega) h)

/-- A formula accepted as linear in `v`, of degree at most 1 in `v`, is linear in `v`. -/
theorem Expr.val_linear {env₁ env₂ : Env} {a b : ℝ} (hl : e.isLinear v = true)
    (hd : e.deg v.ind ≤ 1) (h1 : Off v.ind env env₁) (h2 : Off v.ind env env₂)
    (hv : ∀ k, env v.ind k = a * env₁ v.ind k + b * env₂ v.ind k) (k : Nat) :
    e.val env k = a * e.val env₁ k + b * e.val env₂ k := by
  induction e generalizing k with
  | var i d c =>
    simp only [Expr.isLinear, decide_eq_true_eq] at hl
    subst hl
    simp only [Expr.val, cst]
    split_ifs <;> exact hv _
  | zero => simp [Expr.val]
  | int | rat => cases hl
  | un o f ih =>
    simp only [Expr.isLinear, Bool.and_eq_true] at hl
    have := ih hl.2 (by simpa [Expr.deg, hl.1] using hd)
    cases o <;> first
      | (cases hl.1; done)
      | (simp only [Expr.val, unVal, cst, this, mul_sum, sum_add_distrib]; done)
      | (simp only [Expr.val, unVal, cst, this]; ring1)
      | (simp only [Expr.val, unVal, cst, this]; split_ifs <;> ring1)
  | bin o f g i1 i2 =>
    have key : (f.isLinear v != g.isLinear v) = true → f.deg v.ind + g.deg v.ind ≤ 1 → ∀ k l,
        f.val env k * g.val env l = a * (f.val env₁ k * g.val env₁ l) +
          b * (f.val env₂ k * g.val env₂ l) := by
      intro hl hd k l
      have : f.isLinear v = true ∨ g.isLinear v = true := by
        cases hf : f.isLinear v <;> cases hg : g.isLinear v <;> simp_all
      rcases this with hf | hg
      · by_cases h0 : f.deg v.ind = 0
        · simp [f.val_zero hf h0]
        · rw [← g.val_free (by omega) h1, ← g.val_free (by omega) h2, i1 hf (by omega)]; ring
      · by_cases h0 : g.deg v.ind = 0
        · simp [g.val_zero hg h0]
        · rw [← f.val_free (by omega) h1, ← f.val_free (by omega) h2, i2 hg (by omega)]; ring
    cases o <;> simp only [Expr.isLinear, Bool.and_eq_true] at hl <;>
        simp only [Expr.deg] at hd <;> first
      | (cases hl; done)
      | (simp only [Expr.val, binVal, cst, key hl hd, mul_sum, sum_add_distrib]
         first | done | (split_ifs <;> first | ring1 | simp only [mul_sum, sum_add_distrib]))
      | (have e1 := i1 hl.1 (by omega)
         have e2 := i2 hl.2 (by omega)
         simp only [Expr.val, binVal, cst, e1, e2]
         first | ring1 | (split_ifs <;> ring1))
      | (have e1 := i1 hl (by omega)
         simp only [Expr.val, binVal, e1, ← g.val_free (w := v.ind) (by omega) h1,
           ← g.val_free (w := v.ind) (by omega) h2]
         ring1)
  | tern | fact => cases hl

end Free

/-! ## Adjoints -/

section Adjoint

variable {v : VarId} {env : Env} {n : Nat} {e u r f g : Expr} {U V : Vec}

theorem At.broadcast {Δ : Domain} {a : Expr} {d d' : Nat} (ha : At Δ env a d V) (hd' : 0 < d')
    (hx : d' = 1 → d = 1) (h : broadcast a d' = .ok r) : At Δ env r d' V := by
  have h0 := ha.pos
  obtain ⟨h1, h2, h3, -, h4⟩ := broadcast_ok ha.wf hd' h
  obtain ⟨h5, h6⟩ := h4 Δ env ha.dom
  refine ⟨h2, ?_, h5, fun k => (h6 k).trans (ha.val k)⟩
  rw [h3, ha.dim]
  rw [ha.dim] at h1
  omega

/-- Scalar product. -/
noncomputable def dot (d : Nat) (x y : Vec) : ℝ := ∑ k ∈ range d, x k * y k

theorem dot_congr {d : Nat} {x y x' y' : Vec} (h : ∀ k < d, x k * y k = x' k * y' k) :
    dot d x y = dot d x' y' := sum_congr rfl fun k hk => h k (by simpa using hk)

/-- `r` is, at the point `env`, the adjoint of the linear map `v ↦ e` applied to the vector `U`. -/
def Adj (v : VarId) (env : Env) (e : Expr) (U : Vec) (r : Expr) : Prop :=
  ∃ R, At .defined env r v.dim R ∧
    ∀ env', Off v.ind env env' → dot v.dim R (env' v.ind) = dot e.dim U (e.val env')

/-- Conditions on a formula. -/
structure Good (w : Int) (env : Env) (e : Expr) : Prop where
  wf : e.WF
  deg : e.deg w ≤ 1
  dom : e.Dom .defined env

theorem Good.at (h : Good v.ind env e) {env' : Env} (ho : Off v.ind env env') :
    At .defined env' e e.dim (e.val env') := At.self h.wf (e.dom_off h.deg ho h.dom)

theorem Good.at' (h : Good v.ind env e) : At .defined env e e.dim (e.val env) := At.self h.wf h.dom

theorem Good.un {o : Un} (h : Good v.ind env (.un o f)) (ho : o.linear = true) : Good v.ind env f :=
  ⟨h.wf.1, by simpa [Expr.deg, ho] using h.deg, h.dom.1⟩

theorem Good.bin {o : Bin} (h : Good v.ind env (.bin o f g)) : Good v.ind env f ∧ Good v.ind env g := by
  have := h.deg
  refine ⟨⟨h.wf.1, ?_, h.dom.1⟩, ⟨h.wf.2.1, ?_, h.dom.2.1⟩⟩ <;>
    cases o <;> simp only [Expr.deg] at this <;> omega

/-- Broadcasting. -/
theorem Good.broadcast (h : Good v.ind env f) {d : Nat} (hd : 0 < d) (hx : d = 1 → f.dim = 1)
    (hb : broadcast f d = .ok r) : Good v.ind env r ∧ r.dim = d ∧
      ∀ env', Off v.ind env env' → r.val env' = f.val env' := by
  have := h.at'.broadcast hd hx hb
  exact ⟨⟨this.wf, (broadcast_deg hb).1.trans h.deg, this.dom⟩, this.dim,
    fun env' ho => ((h.at ho).broadcast hd hx hb).eq⟩

theorem max_dims {a b : Nat} (ha : 0 < a) (hb : 0 < b) (h : dimsOk [a, b] = true) :
    (a = max a b ∨ a = 1) ∧ (b = max a b ∨ b = 1) := by
  rcases (dimsOk_pair ha hb).mp h with h | h | h <;> omega

/-- `Adj` through the broadcasting of the formula. -/
theorem Adj.of_eq {f' : Expr} {U' : Vec} (h : Adj v env f' U' r)
    (hu : ∀ env', Off v.ind env env' → dot f'.dim U' (f'.val env') = dot e.dim U (e.val env')) :
    Adj v env e U r := by
  obtain ⟨R, h1, h2⟩ := h
  exact ⟨R, h1, fun env' ho => (h2 env' ho).trans (hu env' ho)⟩

/-- `AdjointOperator` returns the adjoint. -/
theorem adjoint_res (hv : 0 < v.dim) (he : Good v.ind env e) (hu : At .defined env u e.dim U)
    (h : adjoint n v e u = .ok r) : Adj v env e U r := by
  induction n generalizing e u r U with
  | zero => cases h
  | succ n ih =>
    unfold adjoint at h
    by_cases hl : e.isLinear v = true
    swap
    · simp [hl] at h
    simp only [hl, Bool.not_true, Bool.false_eq_true, if_false] at h
    have hp := he.wf.pos
    split at h
    · rename_i f g
      obtain ⟨hf, hg⟩ := he.bin
      have p1 := hf.wf.pos
      have p2 := hg.wf.pos
      obtain ⟨f', b1, h⟩ := bind_ok h
      obtain ⟨a, a1, h⟩ := bind_ok h
      obtain ⟨g', b2, h⟩ := bind_ok h
      obtain ⟨b, a2, h⟩ := bind_ok h
      have hd : (Expr.bin .add f g).dim = max f.dim g.dim := rfl
      obtain ⟨gf, df, vf⟩ := hf.broadcast hp (by omega) b1
      obtain ⟨gg, dg, vg⟩ := hg.broadcast hp (by omega) b2
      obtain ⟨R, r1, r2⟩ := ih gf (hu.congr df.symm fun _ => rfl) a1
      obtain ⟨S, s1, s2⟩ := ih gg (hu.congr dg.symm fun _ => rfl) a2
      refine ⟨_, (At.bin (o := .add) r1 s1 trivial h).2.congr (by simp [Bin.dim]) fun _ => rfl, ?_⟩
      intro env' ho
      have e1 := r2 env' ho
      have e2 := s2 env' ho
      rw [df, vf env' ho] at e1
      rw [dg, vg env' ho] at e2
      simp only [dot, binVal, Expr.val, add_mul, mul_add, sum_add_distrib] at e1 e2 ⊢
      rw [e1, e2]
    · rename_i f g
      obtain ⟨hf, hg⟩ := he.bin
      have p1 := hf.wf.pos
      have p2 := hg.wf.pos
      obtain ⟨f', b1, h⟩ := bind_ok h
      obtain ⟨a, a1, h⟩ := bind_ok h
      obtain ⟨g', b2, h⟩ := bind_ok h
      obtain ⟨b, a2, h⟩ := bind_ok h
      have hd : (Expr.bin .sub f g).dim = max f.dim g.dim := rfl
      obtain ⟨gf, df, vf⟩ := hf.broadcast hp (by omega) b1
      obtain ⟨gg, dg, vg⟩ := hg.broadcast hp (by omega) b2
      obtain ⟨R, r1, r2⟩ := ih gf (hu.congr df.symm fun _ => rfl) a1
      obtain ⟨S, s1, s2⟩ := ih gg (hu.congr dg.symm fun _ => rfl) a2
      refine ⟨_, (At.bin (o := .sub) r1 s1 trivial h).2.congr (by simp [Bin.dim]) fun _ => rfl, ?_⟩
      intro env' ho
      have e1 := r2 env' ho
      have e2 := s2 env' ho
      rw [df, vf env' ho] at e1
      rw [dg, vg env' ho] at e2
      simp only [dot, binVal, Expr.val, sub_mul, mul_sub, sum_sub_distrib] at e1 e2 ⊢
      rw [e1, e2]
    · rename_i f
      have hf := he.un rfl
      obtain ⟨f', b1, h⟩ := bind_ok h
      obtain ⟨a, a1, h⟩ := bind_ok h
      have hd : (Expr.un .minus f).dim = f.dim := rfl
      obtain ⟨gf, df, vf⟩ := hf.broadcast hp (by omega) b1
      obtain ⟨R, r1, r2⟩ := ih gf (hu.congr df.symm fun _ => rfl) a1
      refine ⟨_, At.un (o := .minus) r1 r1.pos (by simp) trivial h, ?_⟩
      intro env' ho
      have e1 := r2 env' ho
      rw [df, vf env' ho] at e1
      simp only [dot, unVal, Expr.val, neg_mul, mul_neg, sum_neg_distrib] at e1 ⊢
      rw [e1]
    · rename_i f g
      obtain ⟨hf, hg⟩ := he.bin
      obtain ⟨p, b1, h⟩ := bind_ok h
      obtain ⟨s, b2, h⟩ := bind_ok h
      have hd : f.dim = g.dim := by simpa [Bin.accept] using he.wf.2.2.1
      have at_p : ∀ env', Off v.ind env env' → At .defined env' s 1 fun _ =>
          ∑ j ∈ range (max f.dim g.dim), f.val env' j * g.val env' j := by
        intro env' ho
        exact At.un (o := .sum) ((hf.at ho).mul (hg.at ho) b1) Nat.one_pos (by simp) trivial b2
      have a0 := at_p env fun _ _ => rfl
      have gs : Good v.ind env s := ⟨a0.wf, by
        have e1 := (build_le (w := v.ind) b1).1
        have e2 := (mkUn_deg (w := v.ind) b2).1
        have e3 := he.deg
        simp only [Expr.deg, Req.deg, Un.linear, if_true] at e1 e2 e3
        omega, a0.dom⟩
      refine (ih gs (hu.congr a0.dim.symm fun _ => rfl) h).of_eq fun env' ho => ?_
      rw [a0.dim, (at_p env' ho).eq]
      rfl
    · rename_i f g
      obtain ⟨hf, hg⟩ := he.bin
      have p1 := hf.wf.pos
      have p2 := hg.wf.pos
      have hd : (Expr.bin .mul f g).dim = max f.dim g.dim := rfl
      have hdeg : f.deg v.ind + g.deg v.ind ≤ 1 := he.deg
      split_ifs at h with hlf
      · obtain ⟨f', b1, h⟩ := bind_ok h
        obtain ⟨w, b2, h⟩ := bind_ok h
        obtain ⟨gf, df, vf⟩ := hf.broadcast hp (by omega) b1
        have aw := hg.at'.mul hu b2
        refine (ih gf (aw.congr (by rw [df]; omega) fun _ => rfl) h).of_eq fun env' ho => ?_
        rw [df, vf env' ho]
        refine dot_congr fun k _ => ?_
        by_cases h0 : f.deg v.ind = 0
        · simp [Expr.val, binVal, f.val_zero hlf h0]
        · simp only [Expr.val, binVal, g.val_free (w := v.ind) (by omega) ho]; ring
      · have hlg : g.isLinear v = true := by
          simp only [Expr.isLinear, hlf] at hl
          cases hg' : g.isLinear v <;> simp_all
        obtain ⟨g', b1, h⟩ := bind_ok h
        obtain ⟨w, b2, h⟩ := bind_ok h
        obtain ⟨gg, dg, vg⟩ := hg.broadcast hp (by omega) b1
        have aw := hf.at'.mul hu b2
        refine (ih gg (aw.congr (by rw [dg]; omega) fun _ => rfl) h).of_eq fun env' ho => ?_
        rw [dg, vg env' ho]
        refine dot_congr fun k _ => ?_
        by_cases h0 : g.deg v.ind = 0
        · simp [Expr.val, binVal, g.val_zero hlg h0]
        · simp only [Expr.val, binVal, f.val_free (w := v.ind) (by omega) ho]; ring
    · rename_i f g
      obtain ⟨hf, hg⟩ := he.bin
      have p1 := hf.wf.pos
      have p2 := hg.wf.pos
      have hd : (Expr.bin .div f g).dim = max f.dim g.dim := rfl
      have hdeg : f.deg v.ind + 2 * g.deg v.ind ≤ 1 := he.deg
      obtain ⟨f', b1, h⟩ := bind_ok h
      obtain ⟨w, b2, h⟩ := bind_ok h
      obtain ⟨gf, df, vf⟩ := hf.broadcast hp (by omega) b1
      have hz : ∀ k < max f.dim g.dim, g.val env k ≠ 0 := he.dom.2.2
      have aw := hu.div hg.at' (fun k hk => hz k (by omega)) b2
      refine (ih gf (aw.congr (by rw [df]; omega) fun _ => rfl) h).of_eq fun env' ho => ?_
      rw [df, vf env' ho]
      refine dot_congr fun k _ => ?_
      simp only [Expr.val, binVal, g.val_free (w := v.ind) (by omega) ho]; ring
    · rename_i i d c
      cases h
      simp only [Expr.isLinear, decide_eq_true_eq] at hl
      subst hl
      refine ⟨U, hu, fun env' ho => dot_congr fun k hk => ?_⟩
      simp only [Expr.val, cst]
      split_ifs with h1
      · obtain rfl : k = 0 := by have : k < d := hk; omega
        rfl
      · rfl
    · rename_i m f
      have hf := he.un rfl
      have hd1 : f.dim = 1 := he.wf.2.2.2 m rfl
      obtain ⟨w, b1, h⟩ := bind_ok h
      refine (ih hf ((hu.sum b1).congr hd1.symm fun _ => rfl) h).of_eq fun env' ho => ?_
      rw [hd1]
      simp [dot, Expr.val, unVal, sum_mul]
    · rename_i f
      have hf := he.un rfl
      obtain ⟨w, b1, h⟩ := bind_ok h
      refine (ih hf (hu.sumT hf.wf.pos b1).2 h).of_eq fun env' ho => ?_
      simp only [dot, Expr.val, unVal, Expr.dim, Un.dim, range_one, sum_singleton, mul_sum]
      exact sum_congr rfl fun k _ => by rw [hu.const rfl 0 k]
    · cases h
      exact ⟨fun _ => 0, ⟨hv, rfl, trivial, fun _ => rfl⟩, fun env' ho => by simp [dot, Expr.val]⟩
    · rename_i s m f
      have hf := he.un rfl
      have hsm : s + m ≤ f.dim := by simpa [Un.accept] using he.wf.2.1
      obtain ⟨w, b1, h⟩ := bind_ok h
      have a1 := hu.un (o := .extractT s f.dim) hf.wf.pos (by simp) trivial b1
      refine (ih hf a1 h).of_eq fun env' ho => ?_
      have := sum_range_slice s m f.dim hsm fun k => U k • f.val env' (s + k)
      simp only [dot, Expr.val, unVal, ← smul_eq_mul, sum_cst]
      simp only [smul_eq_mul] at this ⊢
      have e2 : ∀ x : Vec, ∑ k ∈ range m, U k * cst m x k = ∑ k ∈ range m, U k * x k := fun x => by
        have := sum_cst m x U
        simp only [smul_eq_mul] at this
        simpa only [mul_comm] using this
      refine Eq.trans ?_ (this.trans (e2 _).symm)
      refine sum_congr rfl fun k _ => ?_
      split
      · rename_i hk; 
        have hk' : s ≤ k ∧ k < s + m := hk
        rw [if_pos hk', Nat.add_sub_cancel' hk.1]
      · rename_i hk
        have hk' : ¬ (s ≤ k ∧ k < s + m) := hk
        rw [if_neg hk', zero_mul]
    · rename_i s m f
      have hf := he.un rfl
      have hsm : s + f.dim ≤ m := by simpa [Un.accept] using he.wf.2.1
      obtain ⟨w, b1, h⟩ := bind_ok h
      have a1 := hu.un (o := .extract s f.dim) hf.wf.pos (by simp) trivial b1
      refine (ih hf a1 h).of_eq fun env' ho => ?_
      have := sum_range_slice s f.dim m hsm fun k => U (s + k) • f.val env' k
      simp only [dot, Expr.val, unVal, ← smul_eq_mul, sum_cst]
      simp only [smul_eq_mul] at this ⊢
      have e2 : ∀ x : Vec, ∑ k ∈ range m, U k * cst m x k = ∑ k ∈ range m, U k * x k := fun x => by
        have := sum_cst m x U
        simp only [smul_eq_mul] at this
        simpa only [mul_comm] using this
      refine Eq.trans this.symm (Eq.trans ?_ (e2 _).symm)
      refine sum_congr rfl fun k _ => ?_
      split
      · rename_i hk; rw [Nat.add_sub_cancel' hk.1]
      · rw [mul_zero]
    · rename_i m f
      have hf := he.un rfl
      have hm : 0 ≤ m := he.dom.2
      obtain ⟨j, rfl⟩ := Int.eq_ofNat_of_zero_le hm
      have hj : j < f.dim := by simpa [Un.accept] using he.wf.2.1
      obtain ⟨w, b1, h⟩ := bind_ok h
      have a1 := hu.un (o := .elemT f.dim j) hf.wf.pos (by simp)
        (show (0 : Int) ≤ j ∧ (j : Int) < f.dim by omega) b1
      refine (ih hf a1 h).of_eq fun env' ho => ?_
      simp only [dot, Expr.val, unVal, ← smul_eq_mul, sum_cst]
      simp only [Nat.cast_inj, ite_smul, zero_smul]
      rw [sum_ite_eq' (range f.dim) j]
      simp [hj, Expr.dim, Un.dim]
    · rename_i m j f
      have hf := he.un rfl
      obtain ⟨h0, h0'⟩ : 0 ≤ j ∧ j < m := he.dom.2
      have hd1 : f.dim = 1 := by simpa [Un.accept] using he.wf.2.1
      obtain ⟨j, rfl⟩ := Int.eq_ofNat_of_zero_le h0
      obtain ⟨w, b1, h⟩ := bind_ok h
      have a1 := hu.un (o := .elem j) Nat.one_pos (by simp) h0 b1
      refine (ih hf (a1.congr hd1.symm fun _ => rfl) h).of_eq fun env' ho => ?_
      have e2 : ∀ x : Vec, ∑ k ∈ range m, U k * cst m x k = ∑ k ∈ range m, U k * x k := fun x => by
        have := sum_cst m x U
        simp only [smul_eq_mul] at this
        simpa only [mul_comm] using this
      simp only [dot, Expr.val, unVal, hd1, range_one, sum_singleton]
      refine Eq.trans ?_ (e2 _).symm
      simp only [Nat.cast_inj, mul_ite, mul_zero]
      rw [sum_ite_eq' (range m) j]
      have : j < m := by omega
      simp [this]
    · cases h

/-- The variable disappears in the adjoint. -/
theorem adjoint_deg (he : e.deg v.ind ≤ 1) (hu : e.deg v.ind = 0 ∨ u.deg v.ind = 0)
    (h : adjoint n v e u = .ok r) : r.deg v.ind = 0 := by
  induction n generalizing e u r with
  | zero => cases h
  | succ n ih =>
    unfold adjoint at h
    by_cases hl : e.isLinear v = true
    swap
    · simp [hl] at h
    simp only [hl, Bool.not_true, Bool.false_eq_true, if_false] at h
    split at h
    · rename_i f g
      obtain ⟨f', b1, h⟩ := bind_ok h
      obtain ⟨a, a1, h⟩ := bind_ok h
      obtain ⟨g', b2, h⟩ := bind_ok h
      obtain ⟨b, a2, h⟩ := bind_ok h
      have c1 := (broadcast_deg (w := v.ind) b1).1
      have c2 := (broadcast_deg (w := v.ind) b2).1
      simp only [Expr.deg] at he hu
      have := ih (by omega) (by omega) a1
      have := ih (by omega) (by omega) a2
      have := (mkBin_deg (w := v.ind) h).1
      simp only [Expr.deg] at this
      omega
    · rename_i f g
      obtain ⟨f', b1, h⟩ := bind_ok h
      obtain ⟨a, a1, h⟩ := bind_ok h
      obtain ⟨g', b2, h⟩ := bind_ok h
      obtain ⟨b, a2, h⟩ := bind_ok h
      have c1 := (broadcast_deg (w := v.ind) b1).1
      have c2 := (broadcast_deg (w := v.ind) b2).1
      simp only [Expr.deg] at he hu
      have := ih (by omega) (by omega) a1
      have := ih (by omega) (by omega) a2
      have := (mkBin_deg (w := v.ind) h).1
      simp only [Expr.deg] at this
      omega
    · rename_i f
      obtain ⟨f', b1, h⟩ := bind_ok h
      obtain ⟨a, a1, h⟩ := bind_ok h
      have c1 := (broadcast_deg (w := v.ind) b1).1
      simp only [Expr.deg, Un.linear, if_true] at he hu
      have := ih (by omega) (by omega) a1
      have := (mkUn_deg (w := v.ind) h).1
      simp only [Expr.deg, Un.linear, if_true] at this
      omega
    · rename_i f g
      obtain ⟨p, b1, h⟩ := bind_ok h
      obtain ⟨s, b2, h⟩ := bind_ok h
      have c1 := (build_le (w := v.ind) b1).1
      have c2 := (mkUn_deg (w := v.ind) b2).1
      simp only [Expr.deg, Req.deg, Un.linear, if_true] at he hu c1 c2
      exact ih (by omega) (by omega) h
    · rename_i f g
      simp only [Expr.deg] at he hu
      split_ifs at h
      · obtain ⟨f', b1, h⟩ := bind_ok h
        obtain ⟨w, b2, h⟩ := bind_ok h
        have c1 := (broadcast_deg (w := v.ind) b1).1
        have c2 := (build_le (w := v.ind) b2).1
        simp only [Req.deg] at c2
        exact ih (by omega) (by omega) h
      · obtain ⟨f', b1, h⟩ := bind_ok h
        obtain ⟨w, b2, h⟩ := bind_ok h
        have c1 := (broadcast_deg (w := v.ind) b1).1
        have c2 := (build_le (w := v.ind) b2).1
        simp only [Req.deg] at c2
        exact ih (by omega) (by omega) h
    · rename_i f g
      simp only [Expr.deg] at he hu
      obtain ⟨f', b1, h⟩ := bind_ok h
      obtain ⟨w, b2, h⟩ := bind_ok h
      have c1 := (broadcast_deg (w := v.ind) b1).1
      have c2 := (build_le (w := v.ind) b2).1
      simp only [Req.deg] at c2
      exact ih (by omega) (by omega) h
    · cases h
      simp only [Expr.isLinear, decide_eq_true_eq] at hl
      subst hl
      simpa [Expr.deg] using hu
    · obtain ⟨w, b1, h⟩ := bind_ok h
      have c1 := (build_le (w := v.ind) b1).1
      simp only [Expr.deg, Req.deg, Un.linear, if_true] at he hu c1
      exact ih (by omega) (by omega) h
    · obtain ⟨w, b1, h⟩ := bind_ok h
      have c1 := (sumT_deg (w := v.ind) b1).1
      simp only [Expr.deg, Un.linear, if_true] at he hu
      exact ih (by omega) (by omega) h
    · cases h; rfl
    all_goals first
      | (cases h; done)
      | (obtain ⟨w, b1, h⟩ := bind_ok h
         have c1 := (mkUn_deg (w := v.ind) b1).1
         simp only [Expr.deg, Un.linear, if_true] at he hu c1
         exact ih (by omega) (by omega) h)

end Adjoint

/-! ## Traces -/

section Trace

variable {v : VarId} {env : Env} {n d : Nat} {e r f g : Expr} {w wl wr : Weight} {W WL WR : Vec}

theorem Expr.dep_zero {i : Int} : e.dep i = 0 ↔ e.deg i = 0 := by
  induction e with
  | var => rfl
  | zero | int | rat => exact ⟨fun _ => rfl, fun _ => rfl⟩
  | un o f ih =>
    cases o <;> simp only [Expr.dep, Expr.deg, Un.linear, if_true, Bool.false_eq_true, if_false] <;> omega
  | bin o f g i1 i2 =>
    cases o <;> simp only [Expr.dep, Expr.deg] <;> omega
  | tern o f g k i1 i2 i3 => cases o <;> simp only [Expr.dep, Expr.deg] <;> omega
  | fact i d c f g i1 i2 => simp only [Expr.dep, Expr.deg, reduceCtorEq, if_false]; omega

/-- The inputs in which `v` is the `i`-th vector of the canonical basis. -/
noncomputable def basis (env : Env) (v : VarId) (i : Nat) : Env :=
  Function.update env v.ind fun k => if k = i then 1 else 0

theorem basis_off (i : Nat) : Off v.ind env (basis env v i) :=
  fun j hj => (Function.update_of_ne hj _ _).symm

/-- Coefficients of the matrix of the linear map `v ↦ e`. -/
noncomputable def mat (env : Env) (v : VarId) (e : Expr) (k i : Nat) : ℝ := e.val (basis env v i) k

/-- The weight has dimension `d` and value `W`. -/
def WAt (env : Env) : Weight → Nat → Vec → Prop
  | none, d, W => d = 1 ∧ ∀ k, W k = 1
  | some w, d, W => At .defined env w d W

theorem WAt.dim (h : WAt env w d W) : w.dim = d := by
  cases w with
  | none => exact h.1.symm
  | some w => exact At.dim h

theorem WAt.op (h : WAt env w d W) : At .defined env w.op d W := by
  cases w with
  | none =>
    obtain ⟨rfl, h⟩ := h
    exact (At.int 1).congr rfl fun k => by rw [h]; simp
  | some w => exact h

theorem WAt.div (h : WAt env w d W) (hg : At .defined env g g.dim (g.val env))
    (hz : ∀ k < max d g.dim, g.val env k ≠ 0) (hr : w.div n g = .ok r) :
    At .defined env r (max d g.dim) fun k => W k / g.val env k := by
  cases w with
  | none =>
    obtain ⟨rfl, h⟩ := h
    have hp := hg.pos
    refine (At.un (o := .inv) hg hp (by simp) (fun k hk => hz k (by omega)) hr).congr ?_ fun k => ?_
    · show g.dim = _; omega
    · simp [unVal, h]
  | some w => exact At.div h hg hz hr

/-- `r` is the sum of the entries of the matrix, weighted on the left and on the right. -/
def IsSum (v : VarId) (env : Env) (e : Expr) (WL WR : Vec) (r : Expr) : Prop :=
  At .defined env r 1 fun _ => ∑ k ∈ range e.dim, ∑ i ∈ range v.dim, WL k * WR i * mat env v e k i

theorem IsSum.of_eq {f' : Expr} {WL' WR' : Vec} (h : IsSum v env f' WL' WR' r)
    (hu : ∑ k ∈ range f'.dim, ∑ i ∈ range v.dim, WL' k * WR' i * mat env v f' k i =
      ∑ k ∈ range e.dim, ∑ i ∈ range v.dim, WL k * WR i * mat env v e k i) :
    IsSum v env e WL WR r := At.congr h rfl fun _ => hu

theorem mat_var (hv : 0 < v.dim) {k : Nat} (hk : k < v.dim) (i : Nat) :
    mat env v v.expr k i = if k = i then 1 else 0 := by
  simp only [mat, Expr.val, cst, basis, Function.update_self]
  split_ifs <;> first | rfl | omega

/-- `SumLinOperator` fails when the variable does not occur. -/
theorem sumLin_deg (h : sumLin n v e wl wr = .ok r) : e.deg v.ind ≠ 0 := by
  induction n generalizing e wl wr r with
  | zero => cases h
  | succ n ih =>
    unfold sumLin at h
    by_cases hlin : e.isLinear v = true
    swap
    · simp [hlin] at h
    simp only [hlin, Bool.not_true, Bool.false_eq_true, if_false] at h
    have bin : ∀ {f f' : Expr} {d wl wr r}, broadcast f d = .ok f' → sumLin n v f' wl wr = .ok r →
        f.deg v.ind ≠ 0 := fun h1 h2 h3 => ih h2 (by
      have := (broadcast_deg (w := v.ind) h1).1; omega)
    split at h
    · rename_i f g
      obtain ⟨f', b1, h⟩ := bind_ok h
      obtain ⟨a, a1, h⟩ := bind_ok h
      exact fun h0 => bin b1 a1 (Expr.deg_bin_zero h0).1
    · rename_i f g
      obtain ⟨f', b1, h⟩ := bind_ok h
      obtain ⟨a, a1, h⟩ := bind_ok h
      exact fun h0 => bin b1 a1 (Expr.deg_bin_zero h0).1
    · rename_i f
      obtain ⟨f', b1, h⟩ := bind_ok h
      obtain ⟨a, a1, h⟩ := bind_ok h
      exact fun h0 => bin b1 a1 (Expr.deg_un_zero h0)
    · rename_i f g
      obtain ⟨p, b1, h⟩ := bind_ok h
      obtain ⟨s, b2, h⟩ := bind_ok h
      intro h0
      have h1 := (build_le (w := v.ind) b1).1
      have h2 := (mkUn_deg (w := v.ind) b2).1
      have h3 := Expr.deg_bin_zero h0
      simp only [Req.deg, Expr.deg, Un.linear, if_true] at h1 h2
      exact ih h (by omega)
    · rename_i h1 h2 h3 h4
      clear h1 h2 h3 h4
      by_cases c1 : wl.dim = 1 ∨ wl.dim = e.dim
      swap
      · rw [if_pos c1] at h; cases h
      rw [if_neg (not_not.mpr c1)] at h
      by_cases c2 : wr.dim = 1 ∨ wr.dim = v.dim
      swap
      · rw [if_pos c2] at h; cases h
      rw [if_neg (not_not.mpr c2)] at h
      split at h
      · split_ifs at h with hlf
        · obtain ⟨f', b1, h⟩ := bind_ok h
          obtain ⟨w, b2, h⟩ := bind_ok h
          exact fun h0 => bin b1 h (Expr.deg_bin_zero h0).1
        · obtain ⟨f', b1, h⟩ := bind_ok h
          obtain ⟨w, b2, h⟩ := bind_ok h
          exact fun h0 => bin b1 h (Expr.deg_bin_zero h0).2
      · obtain ⟨f', b1, h⟩ := bind_ok h
        obtain ⟨w, b2, h⟩ := bind_ok h
        exact fun h0 => bin b1 h (Expr.deg_bin_zero h0).1
      · simp only [Expr.isLinear, decide_eq_true_eq] at hlin
        subst hlin
        simp [Expr.deg]
      · obtain ⟨w, b1, h⟩ := bind_ok h
        obtain ⟨s, b2, h⟩ := bind_ok h
        exact fun h0 => ih b2 (Expr.deg_un_zero h0)
      · obtain ⟨s, b2, h⟩ := bind_ok h
        exact fun h0 => ih b2 (Expr.deg_un_zero h0)
      · cases h

theorem sumLin_res (hv : 0 < v.dim) (he : Good v.ind env e)
    (hl : WAt env wl wl.dim WL) (hr : WAt env wr wr.dim WR) (hx : wr.dim = 1 ∨ e.dep v.ind ≤ 1)
    (hd : wl.dim = 1 ∨ wl.dim = e.dim) (hd' : wr.dim = 1 ∨ wr.dim = v.dim)
    (h : sumLin n v e wl wr = .ok r) : IsSum v env e WL WR r := by
  induction n generalizing e wl wr r WL WR with
  | zero => cases h
  | succ n ih =>
    unfold sumLin at h
    by_cases hlin : e.isLinear v = true
    swap
    · simp [hlin] at h
    simp only [hlin, Bool.not_true, Bool.false_eq_true, if_false] at h
    have hp := he.wf.pos
    split at h
    · rename_i f g
      obtain ⟨hf, hg⟩ := he.bin
      have p1 := hf.wf.pos
      have p2 := hg.wf.pos
      obtain ⟨f', b1, h⟩ := bind_ok h
      obtain ⟨a, a1, h⟩ := bind_ok h
      obtain ⟨g', b2, h⟩ := bind_ok h
      obtain ⟨b, a2, h⟩ := bind_ok h
      have hdm : (Expr.bin .add f g).dim = max f.dim g.dim := rfl
      obtain ⟨gf, df, vf⟩ := hf.broadcast hp (by omega) b1
      obtain ⟨gg, dg, vg⟩ := hg.broadcast hp (by omega) b2
      have c1 := (broadcast_deg (w := v.ind) b1).2
      have c2 := (broadcast_deg (w := v.ind) b2).2
      have c3 : (Expr.bin .add f g).dep v.ind = max (f.dep v.ind) (g.dep v.ind) := rfl
      have s1 := ih gf hl hr (by omega) (by omega) hd' a1
      have s2 := ih gg hl hr (by omega) (by omega) hd' a2
      refine ((At.bin (o := .add) s1 s2 trivial h).2).congr rfl fun _ => ?_
      simp only [binVal, mat, Expr.val, vf _ (basis_off _), vg _ (basis_off _), df, dg, mul_add,
        sum_add_distrib]
    · rename_i f g
      obtain ⟨hf, hg⟩ := he.bin
      have p1 := hf.wf.pos
      have p2 := hg.wf.pos
      obtain ⟨f', b1, h⟩ := bind_ok h
      obtain ⟨a, a1, h⟩ := bind_ok h
      obtain ⟨g', b2, h⟩ := bind_ok h
      obtain ⟨b, a2, h⟩ := bind_ok h
      have hdm : (Expr.bin .sub f g).dim = max f.dim g.dim := rfl
      obtain ⟨gf, df, vf⟩ := hf.broadcast hp (by omega) b1
      obtain ⟨gg, dg, vg⟩ := hg.broadcast hp (by omega) b2
      have c1 := (broadcast_deg (w := v.ind) b1).2
      have c2 := (broadcast_deg (w := v.ind) b2).2
      have c3 : (Expr.bin .sub f g).dep v.ind = max (f.dep v.ind) (g.dep v.ind) := rfl
      have s1 := ih gf hl hr (by omega) (by omega) hd' a1
      have s2 := ih gg hl hr (by omega) (by omega) hd' a2
      refine ((At.bin (o := .sub) s1 s2 trivial h).2).congr rfl fun _ => ?_
      simp only [binVal, mat, Expr.val, vf _ (basis_off _), vg _ (basis_off _), df, dg, mul_sub,
        sum_sub_distrib]
    · rename_i f
      have hf := he.un rfl
      obtain ⟨f', b1, h⟩ := bind_ok h
      obtain ⟨a, a1, h⟩ := bind_ok h
      have hdm : (Expr.un .minus f).dim = f.dim := rfl
      obtain ⟨gf, df, vf⟩ := hf.broadcast hp (by omega) b1
      have c1 := (broadcast_deg (w := v.ind) b1).2
      have c3 : (Expr.un .minus f).dep v.ind = f.dep v.ind := rfl
      have s1 := ih gf hl hr (by omega) (by omega) hd' a1
      refine (At.un (o := .minus) s1 Nat.one_pos (by simp) trivial h).congr rfl fun _ => ?_
      simp only [unVal, mat, Expr.val, vf _ (basis_off _), df, mul_neg, sum_neg_distrib]
    · rename_i f g
      obtain ⟨hf, hg⟩ := he.bin
      obtain ⟨p, b1, h⟩ := bind_ok h
      obtain ⟨s, b2, h⟩ := bind_ok h
      have at_p : ∀ env', Off v.ind env env' → At .defined env' s 1 fun _ =>
          ∑ j ∈ range (max f.dim g.dim), f.val env' j * g.val env' j := by
        intro env' ho
        exact At.un (o := .sum) ((hf.at ho).mul (hg.at ho) b1) Nat.one_pos (by simp) trivial b2
      have a0 := at_p env fun _ _ => rfl
      have e1 := build_le (w := v.ind) b1
      have e2 := mkUn_deg (w := v.ind) b2
      have e3 := he.deg
      have gs : Good v.ind env s := ⟨a0.wf, by
        have e1 := e1.1
        have e2 := e2.1
        simp only [Expr.deg, Req.deg, Un.linear, if_true] at e1 e2 e3
        omega, a0.dom⟩
      have hx' : wr.dim = 1 ∨ s.dep v.ind ≤ 1 := by
        have e1 := e1.2
        have e2 := e2.2
        simp only [Expr.dep, Req.dep] at e1 e2 hx
        omega
      have d1 : (Expr.bin .scalprod f g).dim = 1 := rfl
      refine (ih gs hl hr hx' (by rw [a0.dim]; omega) hd' h).of_eq ?_
      simp only [a0.dim, mat, (at_p _ (basis_off _)).eq, Expr.val, binVal, d1]
    · rename_i h1 h2 h3 h4
      rw [if_neg (not_not.mpr hd), if_neg (not_not.mpr hd')] at h
      split at h
      · rename_i f g
        clear h1 h2 h3 h4
        obtain ⟨hf, hg⟩ := he.bin
        have p1 := hf.wf.pos
        have p2 := hg.wf.pos
        have hdm : (Expr.bin .mul f g).dim = max f.dim g.dim := rfl
        have hdp : (Expr.bin .mul f g).dep v.ind = max (f.dep v.ind) (g.dep v.ind) := rfl
        have hdeg : f.deg v.ind + g.deg v.ind ≤ 1 := he.deg
        have hok := max_dims p1 p2 he.wf.2.2.1
        split_ifs at h with hlf
        · obtain ⟨f', b1, h⟩ := bind_ok h
          obtain ⟨w, b2, h⟩ := bind_ok h
          obtain ⟨gf, df, vf⟩ := hf.broadcast hp (by omega) b1
          have c1 := (broadcast_deg (w := v.ind) b1).2
          have aw := hg.at'.mul hl.op b2
          have dw : Weight.dim (some w) = max g.dim wl.dim := aw.dim
          refine (ih (wl := some w) gf (show At _ _ _ _ _ from aw.congr dw.symm fun _ => rfl) hr
            (by omega) (by omega) hd' h).of_eq ?_
          rw [df]
          refine sum_congr rfl fun k _ => sum_congr rfl fun i _ => ?_
          simp only [mat, vf _ (basis_off _)]
          by_cases h0 : f.deg v.ind = 0
          · simp [Expr.val, binVal, f.val_zero hlf h0]
          · have e0 : g.val (basis env v i) = g.val env := (g.val_free (by omega) (basis_off i)).symm
            simp only [Expr.val, binVal, e0]; ring
        · have hlg : g.isLinear v = true := by
            simp only [Expr.isLinear, hlf] at hlin
            cases hg' : g.isLinear v <;> simp_all
          obtain ⟨g', b1, h⟩ := bind_ok h
          obtain ⟨w, b2, h⟩ := bind_ok h
          obtain ⟨gg, dg, vg⟩ := hg.broadcast hp (by omega) b1
          have c1 := (broadcast_deg (w := v.ind) b1).2
          have aw := hf.at'.mul hl.op b2
          have dw : Weight.dim (some w) = max f.dim wl.dim := aw.dim
          refine (ih (wl := some w) gg (show At _ _ _ _ _ from aw.congr dw.symm fun _ => rfl) hr
            (by omega) (by omega) hd' h).of_eq ?_
          rw [dg]
          refine sum_congr rfl fun k _ => sum_congr rfl fun i _ => ?_
          simp only [mat, vg _ (basis_off _)]
          by_cases h0 : g.deg v.ind = 0
          · simp [Expr.val, binVal, g.val_zero hlg h0]
          · have e0 : f.val (basis env v i) = f.val env := (f.val_free (by omega) (basis_off i)).symm
            simp only [Expr.val, binVal, e0]; ring
      · rename_i f g
        clear h1 h2 h3 h4
        obtain ⟨hf, hg⟩ := he.bin
        have p1 := hf.wf.pos
        have p2 := hg.wf.pos
        have hdm : (Expr.bin .div f g).dim = max f.dim g.dim := rfl
        have hdp : (Expr.bin .div f g).dep v.ind = max (f.dep v.ind) (g.dep v.ind) := rfl
        have hdeg : f.deg v.ind + 2 * g.deg v.ind ≤ 1 := he.deg
        have hok := max_dims p1 p2 he.wf.2.2.1
        obtain ⟨f', b1, h⟩ := bind_ok h
        obtain ⟨w, b2, h⟩ := bind_ok h
        obtain ⟨gf, df, vf⟩ := hf.broadcast hp (by omega) b1
        have c1 := (broadcast_deg (w := v.ind) b1).2
        have hz : ∀ k < max f.dim g.dim, g.val env k ≠ 0 := he.dom.2.2
        have aw := hl.div hg.at' (fun k hk => hz k (by omega)) b2
        have dw : Weight.dim (some w) = max wl.dim g.dim := aw.dim
        refine (ih (wl := some w) gf (show At _ _ _ _ _ from aw.congr dw.symm fun _ => rfl) hr
          (by omega) (by omega) hd' h).of_eq ?_
        rw [df]
        refine sum_congr rfl fun k _ => sum_congr rfl fun i _ => ?_
        have e0 : g.val (basis env v i) = g.val env := (g.val_free (by omega) (basis_off i)).symm
        simp only [mat, vf _ (basis_off _), Expr.val, binVal, e0]
        ring
      · rename_i i d c
        simp only [Expr.isLinear, decide_eq_true_eq] at hlin
        subst hlin
        clear h1 h2 h3 h4
        have key : ∀ WL WR : Vec, ∑ k ∈ range d, ∑ j ∈ range d, WL k * WR j *
            mat env ⟨i, d, c⟩ (.var i d c) k j = ∑ k ∈ range d, WL k * WR k := by
          intro WL WR
          refine sum_congr rfl fun k hk => ?_
          have hk' : k < d := by simpa using hk
          have : ∀ j, mat env ⟨i, d, c⟩ (.var i d c) k j = if k = j then 1 else 0 :=
            mat_var (v := ⟨i, d, c⟩) hv hk'
          simp only [this, mul_ite, mul_one, mul_zero]
          rw [sum_ite_eq]
          simp [hk']
        split_ifs at h with h0
        · obtain ⟨a, b1, h⟩ := bind_ok h
          have a1 := At.mul (Δ := .defined) (env := env) (a := .int d) (d := 1) (V := fun _ => d)
            ⟨trivial, rfl, trivial, fun _ => by simp [Expr.val]⟩ (h0.1 ▸ hl.op) b1
          have a2 := a1.mul (h0.2 ▸ hr.op) h
          refine a2.congr rfl fun k => ?_
          show _ = ∑ k ∈ range d, ∑ j ∈ range d, WL k * WR j * mat env ⟨i, d, c⟩ (.var i d c) k j
          rw [key, sum_congr rfl fun j _ => show WL j * WR j = WL k * WR k by
            rw [hl.op.const h0.1 j k, hr.op.const h0.2 j k]]
          simp [mul_assoc]
        · obtain ⟨a, b1, h⟩ := bind_ok h
          have a1 := hl.op.mul hr.op b1
          have dm : max wl.dim wr.dim = d := by
            have : (Expr.var i d c).dim = d := rfl
            rw [this] at hd
            have : (VarId.mk i d c).dim = d := rfl
            rw [this] at hd'
            have := hl.op.pos
            have := hr.op.pos
            omega
          refine (a1.sum h).congr rfl fun k => ?_
          show _ = ∑ k ∈ range d, ∑ j ∈ range d, WL k * WR j * mat env ⟨i, d, c⟩ (.var i d c) k j
          rw [key, dm]
      · rename_i m f
        clear h1 h2 h3 h4
        have hf := he.un rfl
        have hd1 : f.dim = 1 := he.wf.2.2.2 m rfl
        obtain ⟨w, b1, h⟩ := bind_ok h
        obtain ⟨s, b2, h⟩ := bind_ok h
        have hdm : (Expr.un (.sumT m) f).dim = m := rfl
        have aw : At .defined env w 1 fun _ => ∑ k ∈ range m, WL k := by
          unfold Weight.sum at b1
          cases wl with
          | none =>
            cases b1
            exact (At.int _).congr rfl fun k => by simp [hl.2, hdm]
          | some w' =>
            simp only at b1
            split_ifs at b1 with hw
            · have hw' : Weight.dim (some w') = 1 := hw
              have := At.mul (show At .defined env w' 1 WL from At.congr hl hw fun _ => rfl)
                (At.int _) b1
              refine this.congr rfl fun k => ?_
              rw [sum_congr rfl fun j _ => hl.op.const hw' j k]
              simp [hdm, mul_comm]
            · refine (At.sum hl b1).congr rfl fun k => ?_
              have : Weight.dim (some w') = m := by
                have hw' : Weight.dim (some w') ≠ 1 := hw
                omega
              rw [this]
        have hdp : (Expr.un (.sumT m) f).dep v.ind = f.dep v.ind := rfl
        have as := ih (wl := none) (WL := fun _ => 1) hf ⟨rfl, fun _ => rfl⟩ hr (by omega) (.inl rfl) hd' b2
        refine (aw.mul as h).congr rfl fun k => ?_
        simp only [hd1, range_one, sum_singleton, one_mul, hdm, sum_mul]
        refine sum_congr rfl fun k _ => ?_
        rw [mul_sum]
        exact sum_congr rfl fun i _ => by simp only [mat, Expr.val, unVal]; ring
      · rename_i f
        clear h1 h2 h3 h4
        have hf := he.un rfl
        obtain ⟨s, b1, h⟩ := bind_ok h
        have hdm : (Expr.un .sum f).dim = 1 := rfl
        have hdp : (Expr.un .sum f).dep v.ind = f.dep v.ind + min (f.dep v.ind) 1 := rfl
        have h1' : wl.dim = 1 := by omega
        by_cases h0 : f.dep v.ind = 0
        · exact absurd (Expr.dep_zero.mp h0) (sumLin_deg b1)
        · have hw1 : wr.dim = 1 := by omega
          have as := ih (wl := wr) (wr := none) (WL := WR) (WR := fun _ => 1) hf hr ⟨rfl, fun _ => rfl⟩
            (.inl rfl) (.inl hw1) (.inl rfl) b1
          refine ((h1' ▸ hl.op).mul as h).congr rfl fun k => ?_
          simp only [hdm, range_one, sum_singleton, mat, Expr.val, unVal]
          rw [hl.op.const h1' k 0, sum_comm, mul_sum]
          refine sum_congr rfl fun i _ => ?_
          rw [mul_sum, mul_sum]
          refine sum_congr rfl fun j _ => ?_
          rw [hr.op.const hw1 j i]; ring
      · cases h

/-- `r` is the trace of the matrix, weighted by `W`; a formula of dimension 1 stands for the vector whose
components are all equal to it. -/
def IsTrace (v : VarId) (env : Env) (e : Expr) (W : Vec) (r : Expr) : Prop :=
  At .defined env r 1 fun _ => ∑ i ∈ range v.dim, W i * mat env v e i i

theorem IsTrace.of_eq {f' : Expr} {W' : Vec} (h : IsTrace v env f' W' r)
    (hu : ∑ i ∈ range v.dim, W' i * mat env v f' i i = ∑ i ∈ range v.dim, W i * mat env v e i i) :
    IsTrace v env e W r := At.congr h rfl fun _ => hu

theorem trace_res (hv : 0 < v.dim) (he : Good v.ind env e)
    (hw : WAt env w w.dim W) (hx : e.dep v.ind ≤ 2)
    (hd : e.dim = 1 ∨ e.dim = v.dim) (hd' : w.dim = 1 ∨ w.dim = v.dim)
    (h : trace n v e w = .ok r) : IsTrace v env e W r := by
  induction n generalizing e w r W with
  | zero => cases h
  | succ n ih =>
    unfold trace at h
    by_cases hlin : e.isLinear v = true
    swap
    · simp [hlin] at h
    simp only [hlin, Bool.not_true, Bool.false_eq_true, if_false] at h
    have hp := he.wf.pos
    split at h
    · rename_i f g
      obtain ⟨hf, hg⟩ := he.bin
      have p1 := hf.wf.pos
      have p2 := hg.wf.pos
      obtain ⟨f', b1, h⟩ := bind_ok h
      obtain ⟨a, a1, h⟩ := bind_ok h
      obtain ⟨g', b2, h⟩ := bind_ok h
      obtain ⟨b, a2, h⟩ := bind_ok h
      have hdm : (Expr.bin .add f g).dim = max f.dim g.dim := rfl
      obtain ⟨gf, df, vf⟩ := hf.broadcast hp (by omega) b1
      obtain ⟨gg, dg, vg⟩ := hg.broadcast hp (by omega) b2
      have c1 := (broadcast_deg (w := v.ind) b1).2
      have c2 := (broadcast_deg (w := v.ind) b2).2
      have c3 : (Expr.bin .add f g).dep v.ind = max (f.dep v.ind) (g.dep v.ind) := rfl
      have s1 := ih gf hw (by omega) (by omega) hd' a1
      have s2 := ih gg hw (by omega) (by omega) hd' a2
      refine ((At.bin (o := .add) s1 s2 trivial h).2).congr rfl fun _ => ?_
      simp only [binVal, mat, Expr.val, vf _ (basis_off _), vg _ (basis_off _), mul_add,
        sum_add_distrib]
    · rename_i f g
      obtain ⟨hf, hg⟩ := he.bin
      have p1 := hf.wf.pos
      have p2 := hg.wf.pos
      obtain ⟨f', b1, h⟩ := bind_ok h
      obtain ⟨a, a1, h⟩ := bind_ok h
      obtain ⟨g', b2, h⟩ := bind_ok h
      obtain ⟨b, a2, h⟩ := bind_ok h
      have hdm : (Expr.bin .sub f g).dim = max f.dim g.dim := rfl
      obtain ⟨gf, df, vf⟩ := hf.broadcast hp (by omega) b1
      obtain ⟨gg, dg, vg⟩ := hg.broadcast hp (by omega) b2
      have c1 := (broadcast_deg (w := v.ind) b1).2
      have c2 := (broadcast_deg (w := v.ind) b2).2
      have c3 : (Expr.bin .sub f g).dep v.ind = max (f.dep v.ind) (g.dep v.ind) := rfl
      have s1 := ih gf hw (by omega) (by omega) hd' a1
      have s2 := ih gg hw (by omega) (by omega) hd' a2
      refine ((At.bin (o := .sub) s1 s2 trivial h).2).congr rfl fun _ => ?_
      simp only [binVal, mat, Expr.val, vf _ (basis_off _), vg _ (basis_off _), mul_sub,
        sum_sub_distrib]
    · rename_i f
      have hf := he.un rfl
      obtain ⟨f', b1, h⟩ := bind_ok h
      obtain ⟨a, a1, h⟩ := bind_ok h
      have hdm : (Expr.un .minus f).dim = f.dim := rfl
      obtain ⟨gf, df, vf⟩ := hf.broadcast hp (by omega) b1
      have c1 := (broadcast_deg (w := v.ind) b1).2
      have c3 : (Expr.un .minus f).dep v.ind = f.dep v.ind := rfl
      have s1 := ih gf hw (by omega) (by omega) hd' a1
      refine (At.un (o := .minus) s1 Nat.one_pos (by simp) trivial h).congr rfl fun _ => ?_
      simp only [unVal, mat, Expr.val, vf _ (basis_off _), mul_neg, sum_neg_distrib]
    · rename_i f g
      obtain ⟨hf, hg⟩ := he.bin
      obtain ⟨p, b1, h⟩ := bind_ok h
      obtain ⟨s, b2, h⟩ := bind_ok h
      have at_p : ∀ env', Off v.ind env env' → At .defined env' s 1 fun _ =>
          ∑ j ∈ range (max f.dim g.dim), f.val env' j * g.val env' j := by
        intro env' ho
        exact At.un (o := .sum) ((hf.at ho).mul (hg.at ho) b1) Nat.one_pos (by simp) trivial b2
      have a0 := at_p env fun _ _ => rfl
      have e1 := build_le (w := v.ind) b1
      have e2 := mkUn_deg (w := v.ind) b2
      have e3 := he.deg
      have gs : Good v.ind env s := ⟨a0.wf, by
        have e1 := e1.1
        have e2 := e2.1
        simp only [Expr.deg, Req.deg, Un.linear, if_true] at e1 e2 e3
        omega, a0.dom⟩
      have hx' : s.dep v.ind ≤ 2 := by
        have e1 := e1.2
        have e2 := e2.2
        simp only [Expr.dep, Req.dep] at e1 e2 hx
        omega
      refine (ih gs hw hx' (by rw [a0.dim]; omega) hd' h).of_eq ?_
      simp only [mat, (at_p _ (basis_off _)).eq, Expr.val, binVal]
    · rename_i h1 h2 h3 h4
      rw [if_neg (not_not.mpr hd'), if_neg (not_not.mpr hd)] at h
      split at h
      · rename_i f g
        clear h1 h2 h3 h4
        obtain ⟨hf, hg⟩ := he.bin
        have p1 := hf.wf.pos
        have p2 := hg.wf.pos
        have hdm : (Expr.bin .mul f g).dim = max f.dim g.dim := rfl
        have hdp : (Expr.bin .mul f g).dep v.ind = max (f.dep v.ind) (g.dep v.ind) := rfl
        have hdeg : f.deg v.ind + g.deg v.ind ≤ 1 := he.deg
        have hok := max_dims p1 p2 he.wf.2.2.1
        split_ifs at h with hlf hg1
        · obtain ⟨t, b1, h⟩ := bind_ok h
          have at_t := ih hf hw (by omega) (by omega) hd' b1
          refine (At.mul at_t (hg1 ▸ hg.at') h).congr rfl fun k => ?_
          rw [sum_mul]
          refine sum_congr rfl fun i _ => ?_
          simp only [mat, Expr.val, binVal]
          by_cases h0 : f.deg v.ind = 0
          · simp [f.val_zero hlf h0]
          · have e0 : g.val (basis env v i) = g.val env := (g.val_free (by omega) (basis_off i)).symm
            rw [e0, hg.at'.const hg1 k i]; ring
        · obtain ⟨w', b2, h⟩ := bind_ok h
          have aw := hg.at'.mul hw.op b2
          have dw : Weight.dim (some w') = max g.dim w.dim := aw.dim
          refine (ih (w := some w') hf (show At _ _ _ _ _ from aw.congr dw.symm fun _ => rfl)
            (by omega) (by omega) (by omega) h).of_eq ?_
          refine sum_congr rfl fun i _ => ?_
          simp only [mat, Expr.val, binVal]
          by_cases h0 : f.deg v.ind = 0
          · simp [f.val_zero hlf h0]
          · have e0 : g.val (basis env v i) = g.val env := (g.val_free (by omega) (basis_off i)).symm
            rw [e0]; ring
        · have hlg : g.isLinear v = true := by
            simp only [Expr.isLinear, hlf] at hlin
            cases hg' : g.isLinear v <;> simp_all
          obtain ⟨w', b2, h⟩ := bind_ok h
          have aw := hf.at'.mul hw.op b2
          have dw : Weight.dim (some w') = max f.dim w.dim := aw.dim
          refine (ih (w := some w') hg (show At _ _ _ _ _ from aw.congr dw.symm fun _ => rfl)
            (by omega) (by omega) (by omega) h).of_eq ?_
          refine sum_congr rfl fun i _ => ?_
          simp only [mat, Expr.val, binVal]
          by_cases h0 : g.deg v.ind = 0
          · simp [g.val_zero hlg h0]
          · have e0 : f.val (basis env v i) = f.val env := (f.val_free (by omega) (basis_off i)).symm
            rw [e0]; ring
      · rename_i f g
        clear h1 h2 h3 h4
        obtain ⟨hf, hg⟩ := he.bin
        have p1 := hf.wf.pos
        have p2 := hg.wf.pos
        have hdm : (Expr.bin .div f g).dim = max f.dim g.dim := rfl
        have hdp : (Expr.bin .div f g).dep v.ind = max (f.dep v.ind) (g.dep v.ind) := rfl
        have hdeg : f.deg v.ind + 2 * g.deg v.ind ≤ 1 := he.deg
        have hok := max_dims p1 p2 he.wf.2.2.1
        obtain ⟨w', b2, h⟩ := bind_ok h
        have hz : ∀ k < max f.dim g.dim, g.val env k ≠ 0 := he.dom.2.2
        have hz' : ∀ k < max w.dim g.dim, g.val env k ≠ 0 := fun k hk => by
          by_cases hg1 : g.dim = 1
          · rw [hg.at'.const hg1 k 0]; exact hz 0 (by omega)
          · exact hz k (by omega)
        have aw := hw.div hg.at' hz' b2
        have dw : Weight.dim (some w') = max w.dim g.dim := aw.dim
        refine (ih (w := some w') hf (show At _ _ _ _ _ from aw.congr dw.symm fun _ => rfl)
          (by omega) (by omega) (by omega) h).of_eq ?_
        refine sum_congr rfl fun i _ => ?_
        have e0 : g.val (basis env v i) = g.val env := (g.val_free (by omega) (basis_off i)).symm
        simp only [mat, Expr.val, binVal, e0]
        ring
      · rename_i i d c
        simp only [Expr.isLinear, decide_eq_true_eq] at hlin
        subst hlin
        clear h1 h2 h3 h4
        have key : ∑ k ∈ range d, W k * mat env ⟨i, d, c⟩ (.var i d c) k k = ∑ k ∈ range d, W k := by
          refine sum_congr rfl fun k hk => ?_
          have hk' : k < d := by simpa using hk
          have : ∀ j, mat env ⟨i, d, c⟩ (.var i d c) k j = if k = j then 1 else 0 :=
            mat_var (v := ⟨i, d, c⟩) hv hk'
          simp [this]
        split_ifs at h with h0
        · have a1 := At.mul (Δ := .defined) (env := env) (a := .int d) (d := 1) (V := fun _ => d)
            ⟨trivial, rfl, trivial, fun _ => by simp [Expr.val]⟩ (h0 ▸ hw.op) h
          refine a1.congr rfl fun k => ?_
          show _ = ∑ k ∈ range d, W k * mat env ⟨i, d, c⟩ (.var i d c) k k
          rw [key, sum_congr rfl fun j _ => hw.op.const h0 j k]
          simp
        · have dm : w.dim = d := by
            rcases hd' with h | h
            · exact absurd h h0
            · exact h
          refine (hw.op.sum h).congr rfl fun k => ?_
          show _ = ∑ k ∈ range d, W k * mat env ⟨i, d, c⟩ (.var i d c) k k
          rw [key, dm]
      · rename_i m f
        clear h1 h2 h3 h4
        have hf := he.un rfl
        have hd1 : f.dim = 1 := he.wf.2.2.2 m rfl
        have hdp : (Expr.un (.sumT m) f).dep v.ind = f.dep v.ind := rfl
        refine (ih hf hw (by omega) (.inl hd1) hd' h).of_eq ?_
        refine sum_congr rfl fun i _ => ?_
        simp only [mat, Expr.val, unVal]
        rw [f.val_const hf.wf hd1 _ i 0]
      · rename_i f
        clear h1 h2 h3 h4
        have hf := he.un rfl
        have hdp : (Expr.un .sum f).dep v.ind = f.dep v.ind + min (f.dep v.ind) 1 := rfl
        have := sumLin_res (wl := none) (WL := fun _ => 1) hv hf ⟨rfl, fun _ => rfl⟩ hw (by omega)
          (.inl rfl) hd' h
        refine At.congr this rfl fun _ => ?_
        rw [sum_comm]
        refine sum_congr rfl fun i _ => ?_
        simp only [mat, Expr.val, unVal, one_mul, mul_sum]
      · cases h

end Trace

end Verif
