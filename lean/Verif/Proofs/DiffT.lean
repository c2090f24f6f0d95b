import Verif.Proofs.Diff

/-!
# Correctness of `DiffT`
-/

namespace Verif

open Spec Finset Filter Topology

theorem bind_ok' {α β : Type} {x : Except Err α} {f : α → Except Err β} {r : β}
    (h : (x >>= f) = .ok r) : ∃ e, x = .ok e ∧ f e = .ok r := by
  cases x with
  | ok e => exact ⟨e, rfl, h⟩
  | error er => cases h

section

variable {M : Type} [AddCommGroup M] [Module ℝ M] {v : VarId} {env : Env} {δ : Int → Nat → M}
variable {n : Nat} {D : Expr → Expr → Except Err Expr} {f g r gradin : Expr} {G : Vec}

local notation "At'" => At Domain.defined env

/-- The recursive calls on `f` are correct. -/
def GoodD (v : VarId) (env : Env) (δ : Int → Nat → M) (D : Expr → Expr → Except Err Expr)
    (f : Expr) : Prop :=
  ∀ {g G r}, At .defined env g f.dim G → D f g = .ok r → Res v env δ r (pairE env δ f G)

/-- The derivatives of the vectorized operations. -/
theorem derivUn_at {o : Un} {df : Expr} (hf : At' f f.dim (f.val env))
    (hs : unSmooth o f.dim (f.val env)) (h : derivUn n o f = .ok df) :
    At' df f.dim (fun k => unD o (f.val env k)) := by
  have hp := hf.pos
  have hmax : max 1 f.dim = f.dim := by omega
  have hmax' : max f.dim 1 = f.dim := by omega
  cases o with
  | exp => exact hf.un (o := .exp) hp (by simp) trivial h
  | square => exact ((At.int 2).mul hf h).congr hmax fun k => by simp [unD]
  | pow m =>
    obtain ⟨p, h1, h⟩ := bind_ok h
    by_cases hm : m = 0
    · subst hm
      have hpw : p = .un (.pow (-1)) f := (mkUn_ok (show mkUn (.pow (-1)) f = .ok p from h1)).1
      cases n with
      | zero => cases h
      | succ n =>
        have hdf : df = .zero f.dim := by
          have h3 : build (n + 1) (.mul (intCst 0) p) = broadcast (.zero 1) p.dim := rfl
          have h4 : p.dim = f.dim := by rw [hpw]; rfl
          rw [h3, h4] at h
          unfold broadcast at h
          split_ifs at h with h5
          · cases h
            have : f.dim = 1 := by simp only [Expr.dim] at h5; omega
            rw [this]
          · cases h; rfl
        rw [hdf]
        exact ⟨hp, rfl, trivial, fun k => by simp [Expr.val, unD]⟩
    · have h2 := hf.pow (m := m - 1) (fun k hk hlt => hs k hk (by omega)) h1
      exact ((At.int m).mul h2 h).congr hmax fun k => by simp [unD]
  | inv =>
    obtain ⟨s, h1, h⟩ := bind_ok h
    have h2 := hf.opPow2 h1
    exact ((At.int (-1)).div h2 (fun k hk => pow_ne_zero 2 (hs k (by omega))) h).congr hmax
      fun k => by simp [unD]
  | sqrt =>
    obtain ⟨c, h1, h⟩ := bind_ok h
    obtain ⟨s, h2, h⟩ := bind_ok h
    have h3 := hf.un (o := .rsqrt) hp (by simp) (fun k hk => (hs k hk).le) h2
    refine ((At.rat h1).mul h3 h).congr hmax fun k => ?_
    simp only [unVal, unD]
    split
    · rename_i h0; simp [h0]
    · push_cast; rfl
  | rsqrt =>
    obtain ⟨c, h1, h⟩ := bind_ok h
    obtain ⟨s, h2, h⟩ := bind_ok h
    obtain ⟨p, h4, h⟩ := bind_ok h
    have h3 := hf.un (o := .rsqrt) hp (by simp) (fun k hk => (hs k hk).le) h2
    have h5 : At' p f.dim (fun k => unVal .rsqrt f.dim (f.val env) k ^ (3 : ℤ)) :=
      h3.pow (m := 3) (fun k hk hlt => by omega) h4
    refine ((At.rat h1).mul h5 h).congr hmax fun k => ?_
    simp only [unVal, unD]
    split
    · rename_i h0; simp [h0]
    · push_cast; rfl
  | log =>
    exact hf.un (o := .inv) hp (by simp) (fun k hk => (hs k hk).ne') h
  | abs => exact hf.un (o := .sign) hp (by simp) trivial h
  | cos =>
    obtain ⟨s, h1, h⟩ := bind_ok h
    exact (hf.un (o := .sin) hp (by simp) trivial h1).minus h
  | sin => exact hf.un (o := .cos) hp (by simp) trivial h
  | acos =>
    obtain ⟨s, h1, h⟩ := bind_ok h
    obtain ⟨t, h2, h⟩ := bind_ok h
    obtain ⟨u, h3, h⟩ := bind_ok h
    have h4 := (At.sub (At.int 1) (hf.opPow2 h1) h2).congr hmax fun _ => rfl
    have h5 := h4.un (o := .rsqrt) hp (by simp) (fun k hk => by
      have := hs k hk
      push_cast
      nlinarith [this.1, this.2]) h3
    refine (h5.minus h).congr rfl fun k => ?_
    simp only [unVal, unD]
    push_cast
    split
    · rename_i h0; simp [h0]
    · rfl
  | asin =>
    obtain ⟨s, h1, h⟩ := bind_ok h
    obtain ⟨t, h2, h⟩ := bind_ok h
    have h4 := (At.sub (At.int 1) (hf.opPow2 h1) h2).congr hmax fun _ => rfl
    have h5 := h4.un (o := .rsqrt) hp (by simp) (fun k hk => by
      have := hs k hk
      push_cast
      nlinarith [this.1, this.2]) h
    refine h5.congr rfl fun k => ?_
    simp only [unVal, unD]
    push_cast
    split
    · rename_i h0; simp [h0]
    · rfl
  | atan =>
    obtain ⟨s, h1, h⟩ := bind_ok h
    obtain ⟨t, h2, h⟩ := bind_ok h
    have h4 := (At.add (At.int 1) (hf.opPow2 h1) h2).congr hmax fun _ => rfl
    refine (h4.un (o := .inv) hp (by simp) (fun k hk => ?_) h).congr rfl fun k => ?_
    · push_cast; positivity
    · simp [unVal, unD]
  | sinXDivX =>
    obtain ⟨c, h1, h⟩ := bind_ok h
    obtain ⟨t1, h2, h⟩ := bind_ok h
    obtain ⟨s, h3, h⟩ := bind_ok h
    obtain ⟨q, h4, h⟩ := bind_ok h
    obtain ⟨t2, h5, h⟩ := bind_ok h
    have k1 := hf.un (o := .cos) hp (by simp) trivial h1
    have k2 := (k1.div hf (fun k hk => hs k (by simpa [Un.dim] using hk)) h2)
    have k3 := hf.un (o := .sin) hp (by simp) trivial h3
    have k5 := (k3.div (hf.opPow2 h4) (fun k hk => pow_ne_zero 2 (hs k (by simpa [Un.dim] using hk))) h5)
    exact (k2.sub k5 h).congr (by simp [Un.dim]) fun k => by simp [unVal, unD]
  | xLogX =>
    obtain ⟨l, h1, h⟩ := bind_ok h
    have k1 := hf.un (o := .log) hp (by simp) hs h1
    exact (k1.add (At.int 1) h).congr hmax' fun k => by simp [unVal, unD]
  | relu => exact hf.un (o := .step) hp (by simp) trivial h
  | clampInt a b => exact hf.un (o := .diffClampInt a b) hp (by simp) trivial h
  | _ => cases h

/-- One term of the chain rule. -/
theorem chainTerm_res {df : Expr} {U : Vec} (hD : GoodD v env δ D f) (hdf : At' df f.dim U)
    (hg : At' gradin f.dim G) (h : chainTerm n (D f) gradin df = .ok r) :
    Res v env δ r (∑ k ∈ range f.dim, G k • U k • f.tan env δ k) := by
  unfold chainTerm at h
  split at h
  · rename_i hd1
    rw [hdf.dim] at hd1
    obtain ⟨t, h1, h⟩ := bind_ok h
    have h2 := (hD hg h1).mulScalar (hdf.congr hd1 fun _ => rfl) h
    rw [pairE_one hd1] at h2
    rw [hd1]
    simpa [smul_smul, mul_comm] using h2
  · obtain ⟨s, h1, h⟩ := bind_ok h
    have h2 := hD ((hg.mul hdf h1).congr (by simp) fun _ => rfl) h
    simpa [pairE, mul_smul] using h2

theorem chainUn_res {df : Expr} {U : Vec} (hD : GoodD v env δ D f) (hdf : At' df f.dim U)
    (hg : At' gradin f.dim G) (h : chainUn n (D f) gradin df = .ok r) :
    Res v env δ r (∑ k ∈ range f.dim, G k • U k • f.tan env δ k) := by
  obtain ⟨t, h1, h⟩ := bind_ok h
  exact (chainTerm_res hD hdf hg h1).zeroAdd h

theorem chainBin_res {df dg : Expr} {U W : Vec} (hD : GoodD v env δ D f) (hD' : GoodD v env δ D g)
    (hdim : f.dim = g.dim) (hdf : At' df f.dim U) (hdg : At' dg g.dim W)
    (hg : At' gradin f.dim G) (h : chainBin n (D f) (D g) gradin df dg = .ok r) :
    Res v env δ r (∑ k ∈ range f.dim, G k • (U k • f.tan env δ k + W k • g.tan env δ k)) := by
  obtain ⟨t, h1, h⟩ := bind_ok h
  obtain ⟨s, h2, h⟩ := bind_ok h
  obtain ⟨t', h3, h⟩ := bind_ok h
  have := ((chainTerm_res hD hdf hg h1).zeroAdd h2).add
    (chainTerm_res hD' hdg (hdim ▸ hg) h3) h
  simpa only [smul_add, sum_add_distrib, hdim] using this

theorem trunc_nat (j : Nat) : trunc ((j : ℝ) + 1 / 2) = j := by
  unfold trunc
  rw [if_pos (by positivity), Int.floor_eq_iff]
  constructor <;> push_cast <;> linarith

/-- One child. -/
theorem diffUn_res {o : Un} (hw : (Expr.un o f).WF) (hf : At' f f.dim (f.val env))
    (hs : unSmooth o f.dim (f.val env)) (hv : 0 < v.dim) (hD : GoodD v env δ D f)
    (hg : At' gradin (Expr.un o f).dim G) (h : diffUn n D v o f gradin = .ok r) :
    Res v env δ r (pairE env δ (.un o f) G) := by
  have hp := hf.pos
  have zero : ∀ {L : M}, L = 0 → diffUn n D v o f gradin = .ok (.zero v.dim) → Res v env δ r L := by
    intro L hL h'
    rw [h'] at h; cases h; subst hL
    exact Res.zero hv
  have chain : o.vectorized = true → (do let df ← derivUn n o f; chainUn n (D f) gradin df) = .ok r →
      Res v env δ r (pairE env δ (.un o f) G) := by
    intro ho h
    obtain ⟨df, h1, h⟩ := bind_ok h
    have hdim := Expr.dim_un (f := f) ho
    have := chainUn_res hD (derivUn_at hf hs h1) (hdim ▸ hg) h
    unfold pairE
    rw [hdim]
    have e : ∀ k, (Expr.un o f).tan env δ k = unD o (f.val env k) • f.tan env δ k := fun k => by
      cases o <;> first | (cases ho; done) | rfl
    simpa only [e] using this
  have vzero : o.vectorized = true → (∀ x, unD o x = 0) → pairE env δ (.un o f) G = 0 := by
    intro ho hx
    refine sum_eq_zero fun k _ => ?_
    have e : (Expr.un o f).tan env δ k = unD o (f.val env k) • f.tan env δ k := by
      cases o <;> first | (cases ho; done) | rfl
    rw [e, hx, zero_smul, smul_zero]
  have hacc := hw.2.1
  cases o with
  | minus =>
    obtain ⟨t, h1, h⟩ := bind_ok h
    have := (hD hg h1).minus h
    have e : pairE env δ (.un .minus f) G = -pairE env δ f G := by
      simp only [pairE, Expr.tan, unTan, unD, Expr.dim, Un.dim, neg_smul, one_smul, smul_neg,
        sum_neg_distrib]
    rw [e]; exact this
  | sign | step | diffClampInt _ _ | round _ | floor => exact zero (vzero rfl fun _ => rfl) rfl
  | oneHot _ | argMax | argMin => exact zero (sum_eq_zero fun k _ => smul_zero _) rfl
  | sum =>
    obtain ⟨s, h1, h⟩ := bind_ok h
    have h2 := (hg.sumT hp h1).2
    have := hD h2 h
    have e : pairE env δ (.un .sum f) G = pairE env δ f G := by
      rw [pairE_one rfl]
      simp only [Expr.tan, unTan, smul_sum]
      exact sum_congr rfl fun k _ => by rw [hg.const rfl 0 k]
    rw [e]; exact this
  | sumT m =>
    have hd1 : f.dim = 1 := hw.2.2.2 m rfl
    obtain ⟨s, h1, h⟩ := bind_ok h
    have h2 := (hg.sum h1).congr hd1.symm fun _ => rfl
    have := hD h2 h
    rw [pairE_one hd1] at this
    have e : pairE env δ (.un (.sumT m) f) G = (∑ j ∈ range m, G j) • f.tan env δ 0 := by
      simp only [pairE, Expr.tan, unTan, Expr.dim, Un.dim, sum_smul]
    rw [e]; exact this
  | elem m =>
    have hm : 0 ≤ m := hs
    obtain ⟨j, rfl⟩ := Int.eq_ofNat_of_zero_le hm
    have hj : j < f.dim := by simpa [Un.accept] using hacc
    obtain ⟨s, h1, h⟩ := bind_ok h
    have h2 := hg.un (o := .elemT f.dim j) hp (by simp) (show (0 : Int) ≤ j ∧ (j : Int) < f.dim by omega) h1
    have := hD h2 h
    have e : pairE env δ (.un (.elem j) f) G = pairE env δ f (unVal (.elemT f.dim j) 1 G) := by
      rw [pairE_one rfl]
      simp only [pairE, unVal, sum_cst, Expr.tan, unTan, Nat.cast_inj, ite_smul, zero_smul]
      rw [sum_ite_eq' (range f.dim) j]
      simp [hj]
    rw [e]; exact this
  | elemT m j =>
    obtain ⟨h0, h0'⟩ : 0 ≤ j ∧ j < m := hs
    have hd1 : f.dim = 1 := by simpa [Un.accept] using hacc
    obtain ⟨j, rfl⟩ := Int.eq_ofNat_of_zero_le h0
    obtain ⟨s, h1, h⟩ := bind_ok h
    have h2 := hg.un (o := .elem j) Nat.one_pos (by simp) h0 h1
    have := hD (h2.congr hd1.symm fun _ => rfl) h
    rw [pairE_one hd1] at this
    have e : pairE env δ (.un (.elemT m j) f) G = G j • f.tan env δ 0 := by
      simp only [pairE, Expr.tan, unTan, Expr.dim, Un.dim, sum_cstM, Nat.cast_inj, smul_ite, smul_zero]
      rw [sum_ite_eq' (range m) j]
      have : j < m := by omega
      simp [this]
    rw [e]; exact this
  | extract s m =>
    have hsm : s + m ≤ f.dim := by simpa [Un.accept] using hacc
    obtain ⟨t, h1, h⟩ := bind_ok h
    have h2 := hg.un (o := .extractT s f.dim) hp (by simp) trivial h1
    have := hD h2 h
    have e : pairE env δ (.un (.extract s m) f) G =
        pairE env δ f (unVal (.extractT s f.dim) m G) := by
      simp only [pairE, Expr.tan, unTan, unVal, Expr.dim, Un.dim, sum_cst, sum_cstM]
      rw [← sum_range_slice s m f.dim hsm fun k => G k • f.tan env δ (s + k)]
      refine sum_congr rfl fun k _ => ?_
      split
      · rename_i hk; rw [Nat.add_sub_cancel' hk.1]
      · rw [zero_smul]
    rw [e]; exact this
  | extractT s m =>
    have hsm : s + f.dim ≤ m := by simpa [Un.accept] using hacc
    obtain ⟨t, h1, h⟩ := bind_ok h
    have h2 := hg.un (o := .extract s f.dim) hp (by simp) trivial h1
    have := hD h2 h
    have e : pairE env δ (.un (.extractT s m) f) G =
        pairE env δ f (unVal (.extract s f.dim) m G) := by
      simp only [pairE, Expr.tan, unTan, unVal, Expr.dim, Un.dim, sum_cst, sum_cstM]
      rw [← sum_range_slice s f.dim m hsm fun k => G (s + k) • f.tan env δ k]
      refine sum_congr rfl fun k _ => ?_
      split
      · rename_i hk; rw [Nat.add_sub_cancel' hk.1]
      · rw [smul_zero]
    rw [e]; exact this
  | max =>
    obtain ⟨a, h1, h⟩ := bind_ok h
    obtain ⟨s, h2, h⟩ := bind_ok h
    obtain ⟨t, h3, h⟩ := bind_ok h
    have hj := (argMax_spec hp (f.val env)).1
    have k1 := hf.un (o := .argMax) Nat.one_pos (by simp) trivial h1
    have k2 := k1.un (o := .oneHot f.dim) hp (by simp) (by
      show 0 ≤ trunc ((argMax f.dim (f.val env) : ℝ) + 1 / 2) ∧
        trunc ((argMax f.dim (f.val env) : ℝ) + 1 / 2) < f.dim
      rw [trunc_nat]; omega) h2
    have k3 := (k2.mul hg h3).congr (show max f.dim 1 = f.dim by omega) fun _ => rfl
    have := hD k3 h
    have e : pairE env δ (.un .max f) G = pairE env δ f (fun k =>
        unVal (.oneHot f.dim) (Un.argMax.dim f.dim) (unVal .argMax f.dim (f.val env)) k * G k) := by
      rw [pairE_one rfl]
      simp only [pairE, Expr.tan, unTan, unVal, mul_smul, sum_cst, trunc_nat, Spec.ind, Nat.cast_inj,
        ite_smul, one_smul, zero_smul]
      rw [sum_ite_eq' (range f.dim)]
      simp only [mem_range, hj, if_true]
      rw [hg.const rfl 0]
    rw [e]; exact this
  | min =>
    obtain ⟨a, h1, h⟩ := bind_ok h
    obtain ⟨s, h2, h⟩ := bind_ok h
    obtain ⟨t, h3, h⟩ := bind_ok h
    have hj := (argMin_spec hp (f.val env)).1
    have k1 := hf.un (o := .argMin) Nat.one_pos (by simp) trivial h1
    have k2 := k1.un (o := .oneHot f.dim) hp (by simp) (by
      show 0 ≤ trunc ((argMin f.dim (f.val env) : ℝ) + 1 / 2) ∧
        trunc ((argMin f.dim (f.val env) : ℝ) + 1 / 2) < f.dim
      rw [trunc_nat]; omega) h2
    have k3 := (k2.mul hg h3).congr (show max f.dim 1 = f.dim by omega) fun _ => rfl
    have := hD k3 h
    have e : pairE env δ (.un .min f) G = pairE env δ f (fun k =>
        unVal (.oneHot f.dim) (Un.argMin.dim f.dim) (unVal .argMin f.dim (f.val env)) k * G k) := by
      rw [pairE_one rfl]
      simp only [pairE, Expr.tan, unTan, unVal, mul_smul, sum_cst, trunc_nat, Spec.ind, Nat.cast_inj,
        ite_smul, one_smul, zero_smul]
      rw [sum_ite_eq' (range f.dim)]
      simp only [mem_range, hj, if_true]
      rw [hg.const rfl 0]
    rw [e]; exact this
  | _ => exact chain rfl h

/-- `Powf`. -/
theorem derivPowf_at {d : Expr × Expr} (hf : At' f f.dim (f.val env)) (hg : At' g g.dim (g.val env))
    (hdim : f.dim = g.dim) (hs : ∀ k < max f.dim g.dim, 0 < f.val env k) (h : derivPowf n f g = .ok d) :
    At' d.1 f.dim (fun k => g.val env k * f.val env k ^ (g.val env k - 1)) ∧
      At' d.2 g.dim (fun k => Real.log (f.val env k) * f.val env k ^ g.val env k) := by
  unfold derivPowf at h
  have hp := hf.pos
  obtain ⟨b1, h1, h⟩ := bind_ok' h
  obtain ⟨p1, h2, h⟩ := bind_ok' h
  obtain ⟨d1, h3, h⟩ := bind_ok' h
  obtain ⟨l, h4, h⟩ := bind_ok' h
  obtain ⟨p, h5, h⟩ := bind_ok' h
  obtain ⟨d2, h6, h⟩ := bind_ok' h
  cases h
  have k1 := hg.sub (At.int 1) h1
  have k2 := (hf.bin (o := .powf) k1 (fun k hk => hs k (by omega)) h2).2
  have k3 := hg.mul k2 h3
  have k4 := hf.un (o := .log) hp (by simp) (fun k hk => hs k (by omega)) h4
  have k5 := (hf.bin (o := .powf) hg (fun k hk => hs k hk) h5).2
  have k6 := k4.mul k5 h6
  exact ⟨k3.congr (by simp only [Bin.dim]; omega) fun k => by simp [binVal],
    k6.congr (by simp only [Bin.dim, Un.dim]; omega) fun k => by simp [binVal, unVal]⟩

/-- `Atan2`. -/
theorem derivAtan2_at {d : Expr × Expr} (hf : At' f f.dim (f.val env)) (hg : At' g g.dim (g.val env))
    (hdim : f.dim = g.dim) (hs : ∀ k < max f.dim g.dim, 0 < g.val env k ∨ f.val env k ≠ 0)
    (h : derivAtan2 n f g = .ok d) :
    At' d.1 f.dim (fun k => g.val env k / (f.val env k ^ 2 + g.val env k ^ 2)) ∧
      At' d.2 g.dim (fun k => -f.val env k / (f.val env k ^ 2 + g.val env k ^ 2)) := by
  unfold derivAtan2 at h
  obtain ⟨f2, h1, h⟩ := bind_ok' h
  obtain ⟨g2, h2, h⟩ := bind_ok' h
  obtain ⟨r2, h3, h⟩ := bind_ok' h
  obtain ⟨d1, h4, h⟩ := bind_ok' h
  obtain ⟨mf, h5, h⟩ := bind_ok' h
  obtain ⟨d2, h6, h⟩ := bind_ok' h
  cases h
  have hpos : ∀ k < max f.dim g.dim, f.val env k ^ 2 + g.val env k ^ 2 ≠ 0 := by
    intro k hk
    rcases hs k hk with h | h
    · positivity
    · positivity
  have k3 := (hf.opPow2 h1).add (hg.opPow2 h2) h3
  have k4 := hg.div k3 (fun k hk => hpos k (by omega)) h4
  have k6 := (hf.minus h5).div k3 (fun k hk => hpos k (by omega)) h6
  exact ⟨k4.congr (by omega) fun k => rfl, k6.congr (by omega) fun k => rfl⟩

theorem asUn_exp {g u : Expr} (h : g.asUn .exp = some u) : g = .un .exp u := by
  cases g with
  | un o f =>
    simp only [Expr.asUn] at h
    split_ifs at h with ho
    cases h
    rw [ho]
  | _ => cases h

theorem pairE_def (e : Expr) (G : Vec) :
    pairE env δ e G = ∑ k ∈ range e.dim, G k • e.tan env δ k := rfl

/-- A differential that is repeated: the sum of the components of the gradient. -/
theorem pairE_bcast {m : Nat} (hw : f.WF) (hd : f.dim = m ∨ f.dim = 1) (G H : Vec)
    (h1 : f.dim = m → ∀ k < m, H k = G k) (h2 : f.dim = 1 → m ≠ 1 → H 0 = ∑ k ∈ range m, G k) :
    pairE env δ f H = ∑ k ∈ range m, G k • f.tan env δ k := by
  by_cases hm : f.dim = m
  · rw [pairE_def, hm]
    exact sum_congr rfl fun k hk => by rw [h1 hm k (by simpa using hk)]
  · have hd1 : f.dim = 1 := hd.resolve_left hm
    rw [pairE_one hd1, h2 hd1 (by omega), sum_smul]
    exact sum_congr rfl fun k _ => by rw [f.tan_const hw hd1 env δ 0 k]

/-- Two children. -/
theorem diffBin_res {o : Bin} (hw : (Expr.bin o f g).WF) (hf : At' f f.dim (f.val env))
    (hg : At' g g.dim (g.val env)) (hs : binSmooth o f.dim g.dim (f.val env) (g.val env))
    (hnb : o = .powf ∨ o = .atan2 → f.dim = g.dim) (hv : 0 < v.dim)
    (hDf : GoodD v env δ D f) (hDg : GoodD v env δ D g)
    (hDu : ∀ u, g = .un .exp u → GoodD v env δ D u)
    (hG : At' gradin (Expr.bin o f g).dim G) (h : diffBin n D v o f g gradin = .ok r) :
    Res v env δ r (pairE env δ (.bin o f g) G) := by
  have hp1 := hf.pos
  have hp2 := hg.pos
  have hacc := hw.2.2.1
  have side : ∀ {f g : Expr} {s : Expr} {m : Nat}, At' gradin m G → m = max f.dim g.dim →
      (f.dim = g.dim ∨ f.dim = 1 ∨ g.dim = 1) → 0 < f.dim → 0 < g.dim →
      addGrad n f g gradin = .ok s →
      At' s f.dim (if f.dim = m then G else fun _ => ∑ k ∈ range m, G k) := by
    intro f g s m hG hm hdd hp1 hp2 h
    unfold addGrad at h
    split_ifs at h with h1
    · rw [if_neg (by omega)]
      exact (hG.sum h).congr (by omega) fun _ => rfl
    · cases h
      rw [if_pos (by omega)]
      exact hG.congr (by omega) fun _ => rfl
  have sideE : ∀ {f : Expr} {m : Nat}, f.WF → (f.dim = m ∨ f.dim = 1) →
      pairE env δ f (if f.dim = m then G else fun _ => ∑ k ∈ range m, G k) =
        ∑ k ∈ range m, G k • f.tan env δ k := by
    intro f m hw hd
    refine pairE_bcast hw hd G _ (fun h k _ => by rw [if_pos h]) (fun h hm => by
      rw [if_neg (by omega)])
  cases o with
  | add =>
    have hdd := Expr.WF.dims hw rfl
    obtain ⟨s, h1, h⟩ := bind_ok h
    obtain ⟨a, h2, h⟩ := bind_ok h
    obtain ⟨s', h3, h⟩ := bind_ok h
    obtain ⟨b, h4, h⟩ := bind_ok h
    have k1 := side hG rfl hdd hp1 hp2 h1
    have k3 := side hG (show (Expr.bin .add f g).dim = max g.dim f.dim from Nat.max_comm _ _)
      (by omega) hp2 hp1 h3
    have := (hDf k1 h2).add (hDg k3 h4) h
    have hm : (Expr.bin .add f g).dim = max f.dim g.dim := rfl
    rw [sideE hf.wf (by omega), sideE hg.wf (by omega), ← sum_add_distrib] at this
    simpa only [pairE_def, Expr.tan, binTan, smul_add] using this
  | sub =>
    have hdd := Expr.WF.dims hw rfl
    obtain ⟨s, h1, h⟩ := bind_ok h
    obtain ⟨a, h2, h⟩ := bind_ok h
    obtain ⟨s', h3, h⟩ := bind_ok h
    obtain ⟨b, h4, h⟩ := bind_ok h
    have k1 := side hG rfl hdd hp1 hp2 h1
    have k3 := side hG (show (Expr.bin .sub f g).dim = max g.dim f.dim from Nat.max_comm _ _)
      (by omega) hp2 hp1 h3
    have := (hDf k1 h2).sub (hDg k3 h4) h
    have hm : (Expr.bin .sub f g).dim = max f.dim g.dim := rfl
    rw [sideE hf.wf (by omega), sideE hg.wf (by omega), ← sum_sub_distrib] at this
    simpa only [pairE_def, Expr.tan, binTan, smul_sub] using this
  | mul =>
    have hdd := Expr.WF.dims hw rfl
    have hm : (Expr.bin .mul f g).dim = max f.dim g.dim := rfl
    simp only [diffBin] at h
    split at h
    · rename_i u hu hd1
      have hd1 : g.dim = 1 := by simpa using hd1
      have := asUn_exp hu
      obtain ⟨a, h1, h⟩ := bind_ok h
      obtain ⟨s, h2, h⟩ := bind_ok h
      obtain ⟨b, h3, h⟩ := bind_ok h
      obtain ⟨t, h4, h⟩ := bind_ok h
      have hud : u.dim = 1 := by rw [this] at hd1; exact hd1
      have huw : u.WF := by rw [this] at hg; exact hg.wf.1
      have k1 := hDf (hG.congr (by omega) fun _ => rfl) h1
      have k2 := (hG.scalprod hf h2).congr hud.symm fun _ => rfl
      have k3 := hDu u this k2 h3
      have k5 := (k1.add k3 h4).mulScalar (hg.congr hd1 fun _ => rfl) h
      rw [pairE_one hud, pairE_def] at k5
      refine cast ?_ k5
      congr 1
      rw [pairE_def, hm, hd1, show max f.dim 1 = f.dim by omega, Nat.max_self, sum_smul, ← sum_add_distrib, smul_sum]
      refine sum_congr rfl fun k _ => ?_
      have e1 : g.val env k = g.val env 0 := g.val_const hg.wf hd1 env k 0
      have e2 : g.tan env δ k = g.val env 0 • u.tan env δ 0 := by
        rw [g.tan_const hg.wf hd1 env δ k 0, this]; rfl
      simp only [Expr.tan, binTan, e1, e2]
      module
    · obtain ⟨s, h1, h⟩ := bind_ok h
      obtain ⟨a, h2, h⟩ := bind_ok h
      obtain ⟨s', h3, h⟩ := bind_ok h
      obtain ⟨b, h4, h⟩ := bind_ok h
      have key : ∀ {f g s : Expr}, At' f f.dim (f.val env) → At' g g.dim (g.val env) →
          At' gradin (max f.dim g.dim) G → (f.dim = g.dim ∨ f.dim = 1 ∨ g.dim = 1) →
          mulGrad n f g gradin = .ok s →
          ∃ H, At' s f.dim H ∧ pairE env δ f H =
            ∑ k ∈ range (max f.dim g.dim), G k • g.val env k • f.tan env δ k := by
        intro f g s hf hg hG hdd h
        have := hf.pos
        have := hg.pos
        unfold mulGrad at h
        split_ifs at h with h0
        · refine ⟨_, (hG.scalprod hg h).congr h0.1.symm fun _ => rfl, ?_⟩
          simp only [smul_smul]
          refine pairE_bcast hf.wf (by omega) (fun k => G k * g.val env k) _ (fun _ => by omega) ?_
          intro _ _
          rw [show max (max f.dim g.dim) g.dim = max f.dim g.dim by omega]
        · refine ⟨_, (hg.mul hG h).congr (by omega) fun _ => rfl, ?_⟩
          simp only [smul_smul]
          exact pairE_bcast hf.wf (by omega) (fun k => G k * g.val env k) _
            (fun _ k _ => mul_comm _ _) (fun _ hne => by omega)
      obtain ⟨H, k1, e1⟩ := key hf hg hG hdd h1
      obtain ⟨H', k3, e3⟩ := key hg hf (hG.congr (by omega) fun _ => rfl) (by omega) h3
      have := (hDf k1 h2).add (hDg k3 h4) h
      rw [e1, e3, Nat.max_comm g.dim f.dim, ← sum_add_distrib] at this
      simpa only [pairE_def, hm, Expr.tan, binTan, smul_add] using this
  | div =>
    have hdd := Expr.WF.dims hw rfl
    have hm : (Expr.bin .div f g).dim = max f.dim g.dim := rfl
    have hz : ∀ k < max f.dim g.dim, g.val env k ≠ 0 := hs
    simp only [diffBin] at h
    split_ifs at h with c1 c2
    · obtain ⟨q, h1, h⟩ := bind_ok h
      obtain ⟨s, h2, h⟩ := bind_ok h
      obtain ⟨a, h3, h⟩ := bind_ok h
      obtain ⟨p, h4, h⟩ := bind_ok h
      obtain ⟨g2, h5, h⟩ := bind_ok h
      obtain ⟨s', h6, h⟩ := bind_ok h
      obtain ⟨b, h7, h⟩ := bind_ok h
      have k1 := hG.div hg (fun k hk => hz k (by omega)) h1
      have k2 := (k1.sum h2).congr c1.1.symm fun _ => rfl
      have k4 := hf.mul hG h4
      have k6 := (k4.div (hg.square h5) (fun k hk => pow_ne_zero 2 (hz k (by omega))) h6).congr
        (show _ = g.dim by omega) fun _ => rfl
      have := (hDf k2 h3).sub (hDg k6 h7) h
      rw [pairE_bcast (m := max f.dim g.dim) hf.wf (by omega) (fun k => G k / g.val env k) _
        (fun _ => by omega) (fun _ _ => by rw [hm]; rw [show max (max f.dim g.dim) g.dim = max f.dim g.dim by omega]),
        pairE_bcast (m := max f.dim g.dim) hg.wf (by omega) (fun k => f.val env k * G k / g.val env k ^ 2) _
        (fun _ _ _ => rfl) (fun _ _ => by omega), ← sum_sub_distrib] at this
      refine cast ?_ this
      congr 1
      refine sum_congr rfl fun k _ => ?_
      simp only [Expr.tan, binTan, smul_sub, smul_smul]
      congr 2 <;> ring
    · obtain ⟨s, h1, h⟩ := bind_ok h
      obtain ⟨a, h2, h⟩ := bind_ok h
      obtain ⟨s', h3, h⟩ := bind_ok h
      obtain ⟨b, h4, h⟩ := bind_ok h
      obtain ⟨t, h5, h⟩ := bind_ok h
      obtain ⟨g2, h6, h⟩ := bind_ok h
      have k1 := (hg.mul hG h1).congr (show _ = f.dim by omega) fun _ => rfl
      have k3 := (hG.scalprod hf h3).congr c2.1.symm fun _ => rfl
      have k6 := (hg.square h6).congr c2.1 fun _ => rfl
      have hz0 := hz 0 (by omega)
      have := ((hDf k1 h2).sub (hDg k3 h4) h5).divScalar k6 (pow_ne_zero 2 hz0) h
      rw [pairE_bcast (m := max f.dim g.dim) hf.wf (by omega) (fun k => g.val env k * G k) _
        (fun _ _ _ => rfl) (fun _ _ => by omega),
        pairE_bcast (m := max f.dim g.dim) hg.wf (by omega) (fun k => G k * f.val env k) _
        (fun _ => by omega) (fun _ _ => by rw [hm]; rw [show max (max f.dim g.dim) f.dim = max f.dim g.dim by omega]),
        ← sum_sub_distrib, smul_sum] at this
      refine cast ?_ this
      congr 1
      refine sum_congr rfl fun k _ => ?_
      have e1 : g.val env k = g.val env 0 := g.val_const hg.wf c2.1 env k 0
      simp only [Expr.tan, binTan, smul_sub, smul_smul, e1]
      congr 2 <;> field_simp
    · obtain ⟨s, h1, h⟩ := bind_ok h
      obtain ⟨a, h2, h⟩ := bind_ok h
      obtain ⟨p, h3, h⟩ := bind_ok h
      obtain ⟨g2, h4, h⟩ := bind_ok h
      obtain ⟨s', h5, h⟩ := bind_ok h
      obtain ⟨b, h6, h⟩ := bind_ok h
      have hfg : f.dim = g.dim := by omega
      have k1 := (hG.div hg (fun k hk => hz k (by omega)) h1).congr (show _ = f.dim by omega) fun _ => rfl
      have k3 := hf.mul hG h3
      have k5 := (k3.div (hg.square h4) (fun k hk => pow_ne_zero 2 (hz k (by omega))) h5).congr
        (show _ = g.dim by omega) fun _ => rfl
      have := (hDf k1 h2).sub (hDg k5 h6) h
      simp only [pairE_def] at this ⊢
      rw [hm, ← hfg, Nat.max_self]
      rw [← hfg, ← sum_sub_distrib] at this
      refine cast ?_ this
      congr 1
      refine sum_congr rfl fun k _ => ?_
      simp only [Expr.tan, binTan, smul_sub, smul_smul]
      congr 2 <;> ring
  | powf =>
    obtain ⟨d, h1, h⟩ := bind_ok' h
    have hdim := hnb (Or.inl rfl)
    obtain ⟨k1, k2⟩ := derivPowf_at hf hg hdim hs h1
    have hm : (Expr.bin .powf f g).dim = max f.dim g.dim := rfl
    have := chainBin_res hDf hDg hdim k1 k2 (hG.congr (by omega) fun _ => rfl) h
    rw [pairE_def, hm, ← hdim, Nat.max_self]
    exact this
  | atan2 =>
    obtain ⟨d, h1, h⟩ := bind_ok' h
    have hdim := hnb (Or.inr rfl)
    obtain ⟨k1, k2⟩ := derivAtan2_at hf hg hdim hs h1
    have hm : (Expr.bin .atan2 f g).dim = max f.dim g.dim := rfl
    have := chainBin_res hDf hDg hdim k1 k2 (hG.congr (by omega) fun _ => rfl) h
    rw [pairE_def, hm, ← hdim, Nat.max_self]
    exact this
  | lessThan | lessOrEqual | equal | notEqual =>
    cases h
    rw [show pairE env δ _ G = 0 from sum_eq_zero fun k _ => smul_zero _]
    exact Res.zero hv
  | scalprod =>
    have hd : f.dim = g.dim := by simpa [Bin.accept] using hacc
    obtain ⟨a, h1, h⟩ := bind_ok h
    obtain ⟨b, h2, h⟩ := bind_ok h
    obtain ⟨s, h3, h⟩ := bind_ok h
    have := Res.scalarMul hG ((hDf (hg.congr hd.symm fun _ => rfl) h1).add
      (hDg (hf.congr hd fun _ => rfl) h2) h3) h
    rw [pairE_one rfl]
    simp only [pairE_def, ← hd, ← sum_add_distrib] at this
    simpa only [Expr.tan, binTan, ← hd, Nat.max_self] using this
  | concat =>
    obtain ⟨s, h1, h⟩ := bind_ok h
    obtain ⟨a, h2, h⟩ := bind_ok h
    obtain ⟨s', h3, h⟩ := bind_ok h
    obtain ⟨b, h4, h⟩ := bind_ok h
    have k1 := hG.un (o := .extract 0 f.dim) hp1 (by simp) trivial h1
    have k3 := hG.un (o := .extract f.dim g.dim) hp2 (by simp) trivial h3
    have := (hDf k1 h2).add (hDg k3 h4) h
    refine cast ?_ this
    congr 1
    simp only [pairE_def, unVal, sum_cst, Expr.tan, binTan, Expr.dim, Bin.dim, sum_cstM]
    rw [sum_range_add]
    congr 1
    · refine sum_congr rfl fun k hk => ?_
      rw [if_pos (by simpa using hk), Nat.zero_add]
    · refine sum_congr rfl fun k hk => ?_
      rw [if_neg (by omega), Nat.add_sub_cancel_left]
  | matVecMult =>
    have hmod : f.dim % g.dim = 0 := by simpa [Bin.accept] using hacc
    have hdiv : f.dim / g.dim * g.dim = f.dim := Nat.div_mul_cancel (Nat.dvd_of_mod_eq_zero hmod)
    obtain ⟨s, h1, h⟩ := bind_ok h
    obtain ⟨a, h2, h⟩ := bind_ok h
    obtain ⟨s', h3, h⟩ := bind_ok h
    obtain ⟨b, h4, h⟩ := bind_ok h
    have hm : (Expr.bin .matVecMult f g).dim = f.dim / g.dim := rfl
    rw [hm] at hG
    have k1 := (hG.bin (o := .tensorProd) hg trivial h1).2
    have hq : f.dim / (f.dim / g.dim) = g.dim := by
      have := hG.pos
      exact Nat.div_eq_of_eq_mul_left this (by rw [Nat.mul_comm]; exact hdiv.symm)
    have k3 := (hG.bin (o := .vecMatMult) hf trivial h3).2
    have := (hDf (k1.congr hdiv fun _ => rfl) h2).add (hDg (k3.congr hq fun _ => rfl) h4) h
    refine cast ?_ this
    congr 1
    simp only [pairE_def, binVal, Expr.tan, binTan, hm, sum_cstM, hq, hdiv, sum_cst]
    rw [← hdiv, sum_range_mul', hdiv]
    simp only [smul_sum, smul_add, sum_add_distrib, sum_smul]
    congr 1
    · refine sum_congr rfl fun i _ => sum_congr rfl fun k hk => ?_
      have hk : k < g.dim := by simpa using hk
      rw [Nat.add_comm (i * g.dim) k, Nat.add_mul_div_right _ _ hp2, Nat.add_mul_mod_self_right,
        Nat.div_eq_of_lt hk, Nat.mod_eq_of_lt hk, Nat.zero_add, smul_smul]
    · rw [sum_comm]
      exact sum_congr rfl fun i _ => sum_congr rfl fun k _ => by rw [smul_smul]
  | vecMatMult =>
    have hmod : g.dim % f.dim = 0 := by simpa [Bin.accept] using hacc
    have hdiv : f.dim * (g.dim / f.dim) = g.dim := Nat.mul_div_cancel' (Nat.dvd_of_mod_eq_zero hmod)
    obtain ⟨s, h1, h⟩ := bind_ok h
    obtain ⟨a, h2, h⟩ := bind_ok h
    obtain ⟨s', h3, h⟩ := bind_ok h
    obtain ⟨b, h4, h⟩ := bind_ok h
    have hm : (Expr.bin .vecMatMult f g).dim = g.dim / f.dim := rfl
    rw [hm] at hG
    have hpos := hG.pos
    have k1 := (hf.bin (o := .tensorProd) hG trivial h1).2
    have hq : g.dim / (g.dim / f.dim) = f.dim := by
      exact Nat.div_eq_of_eq_mul_left hpos hdiv.symm
    have k3 := (hg.bin (o := .matVecMult) hG trivial h3).2
    have := (hDg (k1.congr hdiv fun _ => rfl) h2).add (hDf (k3.congr hq fun _ => rfl) h4) h
    refine cast ?_ this
    congr 1
    simp only [pairE_def, binVal, Expr.tan, binTan, hm, sum_cstM, hq, hdiv, sum_cst]
    have e : ∑ q ∈ range g.dim,
        (f.val env (q / (g.dim / f.dim)) * G (q % (g.dim / f.dim))) • g.tan env δ q =
        ∑ i ∈ range f.dim, ∑ k ∈ range (g.dim / f.dim),
          (f.val env i * G k) • g.tan env δ (i * (g.dim / f.dim) + k) := by
      conv_lhs => rw [← hdiv]
      rw [sum_range_mul', hdiv]
      refine sum_congr rfl fun i _ => sum_congr rfl fun k hk => ?_
      have hk : k < g.dim / f.dim := by simpa using hk
      rw [Nat.add_comm (i * _) k, Nat.add_mul_div_right _ _ hpos, Nat.add_mul_mod_self_right,
        Nat.div_eq_of_lt hk, Nat.mod_eq_of_lt hk, Nat.zero_add]
    rw [e]
    simp only [smul_sum, smul_add, sum_add_distrib, sum_smul]
    rw [add_comm]
    congr 1
    · rw [sum_comm]
      exact sum_congr rfl fun i _ => sum_congr rfl fun k _ => by rw [smul_smul, mul_comm]
    · rw [sum_comm]
      exact sum_congr rfl fun i _ => sum_congr rfl fun k _ => by rw [smul_smul, mul_comm]
  | tensorProd =>
    obtain ⟨s, h1, h⟩ := bind_ok h
    obtain ⟨a, h2, h⟩ := bind_ok h
    obtain ⟨s', h3, h⟩ := bind_ok h
    obtain ⟨b, h4, h⟩ := bind_ok h
    have hm : (Expr.bin .tensorProd f g).dim = f.dim * g.dim := rfl
    rw [hm] at hG
    have e1 : f.dim * g.dim / g.dim = f.dim := Nat.mul_div_cancel _ hp2
    have e2 : f.dim * g.dim / f.dim = g.dim := Nat.mul_div_cancel_left _ hp1
    have k1 := (hG.bin (o := .matVecMult) hg trivial h1).2
    have k3 := (hf.bin (o := .vecMatMult) hG trivial h3).2
    have := (hDf (k1.congr e1 fun _ => rfl) h2).add (hDg (k3.congr e2 fun _ => rfl) h4) h
    refine cast ?_ this
    congr 1
    simp only [pairE_def, binVal, Expr.tan, binTan, hm, sum_cstM, e1, e2, sum_cst]
    rw [sum_range_mul']
    simp only [sum_smul, smul_add, sum_add_distrib]
    congr 1
    · refine sum_congr rfl fun i _ => sum_congr rfl fun k hk => ?_
      have hk : k < g.dim := by simpa using hk
      rw [Nat.add_comm (i * g.dim) k, Nat.add_mul_div_right _ _ hp2, Nat.add_mul_mod_self_right,
        Nat.div_eq_of_lt hk, Nat.mod_eq_of_lt hk, Nat.zero_add, smul_smul]
    · rw [sum_comm]
      refine sum_congr rfl fun i _ => sum_congr rfl fun k hk => ?_
      have hk : k < g.dim := by simpa using hk
      rw [Nat.add_comm (i * g.dim) k, Nat.add_mul_div_right _ _ hp2, Nat.add_mul_mod_self_right,
        Nat.div_eq_of_lt hk, Nat.mod_eq_of_lt hk, Nat.zero_add, smul_smul, mul_comm]

end

/-! ## The formulas used for `Clamp` and `Mod` -/

section Alt

variable {Δ : Domain} {v : VarId} {env : Env} {n : Nat} {f g h r : Expr}

theorem clampAlt_at {d : Nat} (hf : At Δ env f f.dim (f.val env)) (hg : At Δ env g g.dim (g.val env))
    (hh : At Δ env h h.dim (h.val env)) (hd : d = max (max f.dim g.dim) h.dim)
    (h1 : ∀ V W : Vec, (∀ k, V k = f.val env k - g.val env k) → (∀ k, W k = h.val env k - g.val env k) →
      Δ.bin .div (max f.dim g.dim) (max h.dim g.dim) V W)
    (h2 : Δ.un (.clampInt 0 1) d (fun k => (f.val env k - g.val env k) / (h.val env k - g.val env k)))
    (h3 : clampAlt n f g h = .ok r) :
    At Δ env r d (fun k => unFun (.clampInt 0 1)
      ((f.val env k - g.val env k) / (h.val env k - g.val env k)) * (h.val env k - g.val env k) +
        g.val env k) := by
  obtain ⟨a, e1, h3⟩ := bind_ok h3
  obtain ⟨b, e2, h3⟩ := bind_ok h3
  obtain ⟨c, e3, h3⟩ := bind_ok h3
  obtain ⟨p, e4, h3⟩ := bind_ok h3
  obtain ⟨b', e5, h3⟩ := bind_ok h3
  obtain ⟨q, e6, h3⟩ := bind_ok h3
  have := hf.pos
  have := hg.pos
  have := hh.pos
  have k1 := hf.sub hg e1
  have k2 := hh.sub hg e2
  have k3 := (k1.div k2 (h1 _ _ (fun _ => rfl) fun _ => rfl) e3).congr (show _ = d by omega) fun _ => rfl
  have k4 := k3.un (o := .clampInt 0 1) k3.pos (by simp) h2 e4
  have k5 := hh.sub hg e5
  have k6 := (k4.mul k5 e6).congr (show _ = d by simp only [Un.dim]; omega) fun _ => rfl
  exact (k6.add hg h3).congr (by omega) fun k => by rw [unVal_fun rfl]

theorem modAlt_at {d : Nat} (hf : At Δ env f f.dim (f.val env)) (hg : At Δ env g g.dim (g.val env))
    (hh : At Δ env h h.dim (h.val env)) (hd : d = max (max f.dim g.dim) h.dim)
    (h1 : ∀ V : Vec, Δ.bin .div (max f.dim h.dim) g.dim V (g.val env))
    (h2 : Δ.un .floor d (fun k => (f.val env k - h.val env k) / g.val env k))
    (h3 : modAlt n f g h = .ok r) :
    At Δ env r d (fun k => f.val env k -
      g.val env k * ⌊(f.val env k - h.val env k) / g.val env k⌋) := by
  obtain ⟨a, e1, h3⟩ := bind_ok h3
  obtain ⟨b, e2, h3⟩ := bind_ok h3
  obtain ⟨c, e3, h3⟩ := bind_ok h3
  obtain ⟨p, e4, h3⟩ := bind_ok h3
  have := hf.pos
  have := hg.pos
  have := hh.pos
  have k1 := hf.sub hh e1
  have k2 := (k1.div hg (h1 _) e2).congr (show _ = d by omega) fun _ => rfl
  have k3 := k2.un (o := .floor) k2.pos (by simp) h2 e3
  have k4 := (hg.mul k3 e4).congr (show _ = d by simp only [Un.dim]; omega) fun _ => rfl
  exact (hf.sub k4 h3).congr (by omega) fun k => rfl

/-- The formula used for `Clamp` has the same value, when the bounds are in this order. -/
theorem clamp_eq {x a b : ℝ} (h : a < b) :
    unFun (.clampInt 0 1) ((x - a) / (b - a)) * (b - a) + a =
      if x < a then a else if b < x then b else x := by
  have hp : 0 < b - a := by linarith
  simp only [unFun, unVal, Int.cast_zero, Int.cast_one]
  by_cases h1 : x < a
  · rw [if_pos (div_neg_of_neg_of_pos (by linarith) hp), if_pos h1]; ring
  · rw [if_neg (by rw [not_lt] at *; exact div_nonneg (by linarith) hp.le), if_neg h1]
    by_cases h2 : b < x
    · rw [if_pos (by rw [lt_div_iff₀ hp]; linarith), if_pos h2]; ring
    · rw [if_neg (by rw [not_lt] at *; rw [div_le_one hp]; linarith), if_neg h2]
      field_simp
      ring

end Alt

/-! ## The whole gradient -/

section Main

variable {X : Type} [NormedAddCommGroup X] [NormedSpace ℝ X] {v : VarId}
variable {F : X → Env} {x₀ : X} {δ : Int → Nat → (X →L[ℝ] ℝ)}

/-- Two formulas with the same values near the point have the same differential. -/
theorem tan_eq {e e' : Expr} (hw : e.WF) (hw' : e'.WF)
    (hδ : ∀ i k, HasFDerivAt (fun x => F x i k) (δ i k) x₀)
    (hs : e.Dom (.smooth v) (F x₀)) (hs' : e'.Dom (.smooth v) (F x₀)) {k : Nat} (hk : k < e.dim)
    (hk' : k < e'.dim) (h : ∀ᶠ x in 𝓝 x₀, e.val (F x) k = e'.val (F x) k) :
    e.tan (F x₀) δ k = e'.tan (F x₀) δ k := by
  have s := Expr.dom_smooth.mp hs
  have s' := Expr.dom_smooth.mp hs'
  exact (Expr.hasFDerivAt hw s.2.2.2 hδ s.1 (Or.inl hk)).unique
    ((Expr.hasFDerivAt hw' s'.2.2.2 hδ s'.1 (Or.inl hk')).congr_of_eventuallyEq h)

/-- `DiffT` computes the transposed differential. -/
theorem diffT_res (hv : 0 < v.dim) (hδ : ∀ i k, HasFDerivAt (fun x => F x i k) (δ i k) x₀)
    (hδ0 : ∀ i k, i ≠ v.ind → δ i k = 0) {n : Nat} {e gradin r : Expr} {G : Vec}
    (hw : e.WF) (hs : e.Dom (.smooth v) (F x₀))
    (hG : At .defined (F x₀) gradin e.dim G) (h : diffT n v e gradin = .ok r) :
    Res v (F x₀) δ r (pairE (F x₀) δ e G) := by
  induction n generalizing e gradin r G with
  | zero => cases h
  | succ n ih =>
    have good : ∀ {f : Expr}, f.WF → f.Dom (.smooth v) (F x₀) →
        GoodD v (F x₀) δ (diffT n v) f := by
      intro f h1 h2 _ _ _ h3 h4
      exact ih h1 h2 h3 h4
    have at' : ∀ {f : Expr}, f.WF → f.Dom (.smooth v) (F x₀) →
        At .defined (F x₀) f f.dim (f.val (F x₀)) := fun h1 h2 => At.self h1 (smooth_defined h2)
    cases e with
    | var i d c =>
      simp only [diffT, Except.ok.injEq] at h
      by_cases hi : i = v.ind
      · obtain ⟨rfl, rfl⟩ := hs hi
        subst hi
        rw [if_pos rfl] at h
        subst h
        refine ⟨G, hG, ?_⟩
        simp only [pairV, pairE, Expr.tan, Expr.dim, sum_cstM]
      · rw [if_neg (fun hh => hi (by rw [hh]))] at h
        subst h
        have : pairE (F x₀) δ (.var i d c) G = 0 := by
          simp only [pairE, Expr.tan, Expr.dim, sum_cstM]
          exact sum_eq_zero fun k _ => by rw [hδ0 i k hi, smul_zero]
        rw [this]
        exact Res.zero hv
    | zero | int | rat =>
      cases h
      rw [show pairE (F x₀) δ _ G = 0 from sum_eq_zero fun k _ => smul_zero _]
      exact Res.zero hv
    | un o f =>
      have s := (Expr.dom_smooth.mp hs).1
      exact diffUn_res hw (at' hw.1 hs.1) s.2 hv (good hw.1 hs.1) hG h
    | bin o f g =>
      have s := Expr.dom_smooth.mp hs
      refine diffBin_res hw (at' hw.1 hs.1) (at' hw.2.1 hs.2.1) s.1.2.2 ?_ hv (good hw.1 hs.1)
        (good hw.2.1 hs.2.1) ?_ hG h
      · have := s.2.1
        rintro (rfl | rfl) <;> exact this.2.2
      · rintro u rfl
        exact good hw.2.1.1 hs.2.1.1
    | tern o f g k =>
      have hp1 := hw.1.pos
      have hp2 := hw.2.1.pos
      have hp3 := hw.2.2.1.pos
      have hdd := (dimsOk_triple hp1 hp2 hp3).mp hw.2.2.2
      obtain ⟨s1, s2, s3, s4, s5⟩ := hs
      have hnear : ∀ {e : Expr}, e.WF → e.Dom (.smooth v) (F x₀) → ∀ {j}, (j < e.dim ∨ e.dim = 1) →
          ContinuousAt (fun x => e.val (F x) j) x₀ := by
        intro e hw hs j hj
        exact (Expr.hasFDerivAt hw (Expr.dom_smooth.mp hs).2.2.2 hδ (Expr.dom_smooth.mp hs).1
          hj).continuousAt
      have dimE : (Expr.tern o f g k).dim = max (max f.dim g.dim) k.dim := rfl
      cases o with
      | ifElse =>
        obtain ⟨d1, d2⟩ := s5 rfl
        have hdim : (Expr.tern .ifElse f g k).dim = g.dim := by simp only [Expr.dim]; omega
        obtain ⟨a', h1, h⟩ := bind_ok h
        obtain ⟨b', h2, h⟩ := bind_ok h
        obtain ⟨R, r1, r2⟩ := ih hw.2.1 s2 (hG.congr hdim fun _ => rfl) h1
        obtain ⟨S, t1, t2⟩ := ih hw.2.2.1 s3 (hG.congr (hdim.trans d2) fun _ => rfl) h2
        unfold mkTern at h
        split_ifs at h with hok
        cases h
        refine ⟨fun j => if 0 ≤ f.val (F x₀) 0 then R j else S j,
          ⟨⟨hw.1, r1.wf, t1.wf, hok⟩, ?_, ⟨smooth_defined s1, r1.dom, t1.dom, trivial⟩, ?_⟩, ?_⟩
        · simp only [Expr.dim, r1.dim, t1.dim]; omega
        · intro j
          simp only [Expr.val, ternVal, r1.val, t1.val]
          rw [f.val_const hw.1 d1 _ j 0]
        · have e : pairE (F x₀) δ (.tern .ifElse f g k) G =
              if 0 ≤ f.val (F x₀) 0 then pairE (F x₀) δ g G else pairE (F x₀) δ k G := by
            have e2 : ∀ j, (Expr.tern .ifElse f g k).tan (F x₀) δ j =
                if 0 ≤ f.val (F x₀) 0 then g.tan (F x₀) δ j else k.tan (F x₀) δ j := fun j => by
              simp only [Expr.tan, ternTan]
              rw [f.val_const hw.1 d1 _ j 0]
            simp only [pairE, hdim, e2]
            split <;> simp only [d2]
          rw [e]
          split
          · exact r2
          · exact t2
      | clamp =>
        obtain ⟨e', h1, h⟩ := bind_ok h
        have c : ∀ j < max (max f.dim g.dim) k.dim, g.val (F x₀) j < k.val (F x₀) j ∧
          f.val (F x₀) j ≠ g.val (F x₀) j ∧ f.val (F x₀) j ≠ k.val (F x₀) j := s4
        have A := clampAlt_at (Δ := .smooth v) (At.self hw.1 s1) (At.self hw.2.1 s2)
          (At.self hw.2.2.1 s3) rfl (fun V W hV hW => ⟨fun j hj => by
            rw [hW]; have := (c j (by omega)).1; linarith, by simp⟩) (fun j hj => by
            obtain ⟨c1, c2, c3⟩ := c j hj
            have hne : k.val (F x₀) j - g.val (F x₀) j ≠ 0 := (sub_pos.mpr c1).ne'
            simp only [Int.cast_zero, Int.cast_one]
            constructor
            · rw [ne_eq, div_eq_zero_iff, not_or]; exact ⟨sub_ne_zero.mpr c2, hne⟩
            · rw [ne_eq, div_eq_one_iff_eq hne]; intro hh; exact c3 (by linarith)) h1
        have := ih A.wf A.dom (hG.congr (dimE.trans A.dim.symm) fun _ => rfl) h
        have e : pairE (F x₀) δ (.tern .clamp f g k) G = pairE (F x₀) δ e' G := by
          simp only [pairE, A.dim, dimE]
          refine sum_congr rfl fun j hj => ?_
          have hj : j < max (max f.dim g.dim) k.dim := by simpa using hj
          congr 1
          refine tan_eq (v := v) hw A.wf hδ ⟨s1, s2, s3, s4, s5⟩ A.dom (by rw [dimE]; exact hj)
            (by rw [A.dim]; exact hj) ?_
          filter_upwards [near_lt (hnear hw.2.1 s2 (by omega)) (hnear hw.2.2.1 s3 (by omega))
            (c j hj).1] with x hx
          have B := clampAlt_at (Δ := .triv) (At.self hw.1 (f.dom_triv (F x)))
            (At.self hw.2.1 (g.dom_triv (F x))) (At.self hw.2.2.1 (k.dom_triv (F x))) rfl
            (fun _ _ _ _ => trivial) trivial h1
          rw [B.val, clamp_eq hx]
          rfl
        rw [e]; exact this
      | mod =>
        obtain ⟨e', h1, h⟩ := bind_ok h
        have c : ∀ j < max (max f.dim g.dim) k.dim, g.val (F x₀) j ≠ 0 ∧
          ∀ z : ℤ, (f.val (F x₀) j - k.val (F x₀) j) / g.val (F x₀) j ≠ z := s4
        have A := modAlt_at (Δ := .smooth v) (At.self hw.1 s1) (At.self hw.2.1 s2)
          (At.self hw.2.2.1 s3) rfl (fun V => ⟨fun j hj => (c j (by omega)).1, by simp⟩)
          (fun j hj => (c j hj).2) h1
        have := ih A.wf A.dom (hG.congr (dimE.trans A.dim.symm) fun _ => rfl) h
        have e : pairE (F x₀) δ (.tern .mod f g k) G = pairE (F x₀) δ e' G := by
          simp only [pairE, A.dim, dimE]
          refine sum_congr rfl fun j hj => ?_
          have hj : j < max (max f.dim g.dim) k.dim := by simpa using hj
          congr 1
          refine tan_eq (v := v) hw A.wf hδ ⟨s1, s2, s3, s4, s5⟩ A.dom (by rw [dimE]; exact hj)
            (by rw [A.dim]; exact hj) (Eventually.of_forall fun x => ?_)
          have B := modAlt_at (Δ := .triv) (At.self hw.1 (f.dom_triv (F x)))
            (At.self hw.2.1 (g.dom_triv (F x))) (At.self hw.2.2.1 (k.dom_triv (F x))) rfl
            (fun _ => trivial) trivial h1
          rw [B.val]
          rfl
        rw [e]; exact this
    | fact => exact absurd hs.1 id

end Main

end Verif
