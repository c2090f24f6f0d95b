import Mathlib.Tactic.Module
import Verif.Proofs.Calculus
import Verif.Proofs.Term

/-!
# Symbolic gradients are gradients
-/

namespace Verif

open Spec Finset Filter Topology

/-! ## Formulas with a known value at a point -/

/-- At the point `env`, the formula `e` satisfies the conditions `Δ`, has dimension `d` and value `V`. -/
structure At (Δ : Domain) (env : Env) (e : Expr) (d : Nat) (V : Vec) : Prop where
  wf : e.WF
  dim : e.dim = d
  dom : e.Dom Δ env
  val : ∀ k, e.val env k = V k

section At

variable {Δ : Domain} {env : Env} {a b r : Expr} {d d' n : Nat} {V W : Vec}

theorem At.const (h : At Δ env a d V) (hd : d = 1) (k l : Nat) : V k = V l := by
  rw [← h.val, ← h.val]; exact a.val_const h.wf (h.dim.trans hd) env k l

theorem At.pos (h : At Δ env a d V) : 0 < d := h.dim ▸ h.wf.pos

theorem At.eq (h : At Δ env a d V) : a.val env = V := funext h.val

theorem At.self (hw : a.WF) (hd : a.Dom Δ env) : At Δ env a a.dim (a.val env) :=
  ⟨hw, rfl, hd, fun _ => rfl⟩

theorem At.congr (h : At Δ env a d V) (hd : d = d') (hv : ∀ k, V k = W k) : At Δ env a d' W :=
  ⟨h.wf, h.dim.trans hd, h.dom, fun k => (h.val k).trans (hv k)⟩

theorem At.int (n : Int) : At Δ env (intCst n) 1 (fun _ => n) :=
  ⟨intCst_wf n, intCst_dim n, intCst_def n env, intCst_val n env⟩

theorem At.build {q : Req} (hp : q.Pre) (hd : q.Dom Δ env) (h : build n q = .ok r) :
    At Δ env r q.dim (q.val env) := by
  have := build_post (Δ := Δ) hp h
  exact ⟨this.wf, this.dim, (this.sem env hd).1, (this.sem env hd).2⟩

theorem At.add (ha : At Δ env a d V) (hb : At Δ env b d' W) (h : Verif.build n (.add a b) = .ok r) :
    At Δ env r (max d d') (fun k => V k + W k) :=
  (At.build (q := .add a b) ⟨ha.wf, hb.wf⟩ ⟨ha.dom, hb.dom⟩ h).congr
    (by simp only [Req.dim, ha.dim, hb.dim]) (fun k => by simp only [Req.val, ha.val, hb.val])

theorem At.sub (ha : At Δ env a d V) (hb : At Δ env b d' W) (h : Verif.build n (.sub a b) = .ok r) :
    At Δ env r (max d d') (fun k => V k - W k) :=
  (At.build (q := .sub a b) ⟨ha.wf, hb.wf⟩ ⟨ha.dom, hb.dom⟩ h).congr
    (by simp only [Req.dim, ha.dim, hb.dim]) (fun k => by simp only [Req.val, ha.val, hb.val])

theorem At.mul (ha : At Δ env a d V) (hb : At Δ env b d' W) (h : Verif.build n (.mul a b) = .ok r) :
    At Δ env r (max d d') (fun k => V k * W k) :=
  (At.build (q := .mul a b) ⟨ha.wf, hb.wf⟩ ⟨ha.dom, hb.dom⟩ h).congr
    (by simp only [Req.dim, ha.dim, hb.dim]) (fun k => by simp only [Req.val, ha.val, hb.val])

theorem At.div (ha : At Δ env a d V) (hb : At Δ env b d' W) (hz : Δ.bin .div d d' V W)
    (h : Verif.build n (.div a b) = .ok r) : At Δ env r (max d d') (fun k => V k / W k) :=
  (At.build (q := .div a b) ⟨ha.wf, hb.wf⟩
    ⟨ha.dom, hb.dom, by rw [ha.dim, hb.dim, ha.eq, hb.eq]; exact hz⟩ h).congr
    (by simp only [Req.dim, ha.dim, hb.dim]) (fun k => by simp only [Req.val, ha.val, hb.val])

theorem At.scalprod (ha : At Δ env a d V) (hb : At Δ env b d' W)
    (h : Verif.build n (.scalprod a b) = .ok r) :
    At Δ env r 1 (fun _ => ∑ j ∈ range (max d d'), V j * W j) :=
  (At.build (q := .scalprod a b) ⟨ha.wf, hb.wf⟩ ⟨ha.dom, hb.dom⟩ h).congr rfl
    (fun k => by simp only [Req.val, ha.val, hb.val, ha.dim, hb.dim])

theorem At.minus (ha : At Δ env a d V) (h : Verif.build n (.minus a) = .ok r) :
    At Δ env r d (fun k => -V k) :=
  (At.build (q := .minus a) ha.wf ha.dom h).congr ha.dim (fun k => by simp only [Req.val, ha.val])

theorem At.sum (ha : At Δ env a d V) (h : Verif.build n (.sum a) = .ok r) :
    At Δ env r 1 (fun _ => ∑ j ∈ range d, V j) :=
  (At.build (q := .sum a) ha.wf ha.dom h).congr rfl
    (fun k => by simp only [Req.val, ha.val, ha.dim])

theorem At.sumT (ha : At Δ env a d V) (hd' : 0 < d') (h : sumT a d' = .ok r) :
    d = 1 ∧ At Δ env r d' V := by
  obtain ⟨h0, h1, h2, h3, h4⟩ := sumT_ok ha.wf hd' h
  obtain ⟨e1, e2⟩ := h4 Δ env ha.dom
  exact ⟨ha.dim.symm.trans h0, h1, h2, e1, fun k => (e2 k).trans (ha.val k)⟩

theorem At.square (ha : At Δ env a d V) (h : square a = .ok r) : At Δ env r d (fun k => V k ^ 2) := by
  obtain ⟨h1, h2, h3, h4⟩ := square_ok ha.wf h
  obtain ⟨e1, e2⟩ := h4 Δ env ha.dom
  exact ⟨h1, h2.trans ha.dim, e1, fun k => by rw [e2, ha.val, pow_two]⟩

theorem At.un {o : Un} (ha : At Δ env a d V) (hd : 0 < o.dim d) (ho : ∀ n, o ≠ .sumT n)
    (hx : Δ.un' o d V) (h : mkUn o a = .ok r) : At Δ env r (o.dim d) (unVal o d V) := by
  obtain ⟨rfl, hok⟩ := mkUn_ok h
  obtain ⟨w1, rfl, w3, w4⟩ := ha
  obtain rfl : a.val env = V := funext w4
  exact ⟨⟨w1, hok, hd, fun n hn => absurd hn (ho n)⟩, rfl, ⟨w3, hx⟩, fun _ => rfl⟩

theorem At.bin {o : Bin} (ha : At Δ env a d V) (hb : At Δ env b d' W)
    (hx : Δ.bin' o d d' V W) (h : mkBin o a b = .ok r) :
    o.accept d d' = true ∧ At Δ env r (o.dim d d') (binVal o d d' V W) := by
  obtain ⟨rfl, hok⟩ := mkBin_ok h
  obtain ⟨w1, rfl, w3, w4⟩ := ha
  obtain rfl : a.val env = V := funext w4
  obtain ⟨u1, rfl, u3, u4⟩ := hb
  obtain rfl : b.val env = W := funext u4
  exact ⟨hok, ⟨w1, u1, hok, Bin.dim_pos w1.pos u1.pos hok⟩, rfl, ⟨w3, u3, hx⟩, fun _ => rfl⟩

theorem At.pow {m : Int} (ha : At Δ env a d V) (hx : Δ.un (.pow m) d V) (h : pow a m = .ok r) :
    At Δ env r d (fun k => V k ^ m) := by
  unfold Verif.pow at h
  split_ifs at h with hm
  · cases h
    subst hm
    exact ha.congr rfl fun k => (zpow_one _).symm
  · exact ha.un (o := .pow m) ha.pos (fun n h => by cases h) hx h

theorem At.opPow2 (ha : At Δ env a d V) (h : opPow a 2 = .ok r) :
    At Δ env r d (fun k => V k ^ 2) := by
  unfold opPow at h
  exact ha.square h

theorem At.rat {p q : Int} (h : ratCst p q = .ok r) : At Δ env r 1 (fun _ => p / q) := by
  obtain ⟨h1, h2, h3, h4, h5⟩ := ratCst_ok h
  exact ⟨h1, h2, h4 Δ env, h5 env⟩

end At

/-! ## The domain where gradients are computed -/

/-- Every operation is differentiable, without broadcasting where it is not supported; the index of `v`
denotes `v`; no factorization. -/
def Domain.smooth (v : VarId) : Domain where
  var i d c := i = v.ind → d = v.dim ∧ c = v.cat
  fact _ _ _ := False
  un := unSmooth
  bin o d d' x y := binSmooth o d d' x y ∧ (o = .powf ∨ o = .atan2 → d = d')
  tern o d d' d'' x y z := ternSmooth o (max (max d d') d'') x y z ∧
    (o = .ifElse → d = 1 ∧ d' = d'')

section Smooth

variable {v : VarId} {env : Env} {e : Expr}

theorem Expr.dom_smooth : e.Dom (.smooth v) env ↔
    e.Smooth env ∧ e.NoBroadcast ∧ e.Uses v ∧ e.FactFree := by
  induction e with
  | var => exact ⟨fun h => ⟨trivial, trivial, h, trivial⟩, fun h => h.2.2.1⟩
  | zero | int | rat => exact ⟨fun _ => ⟨trivial, trivial, trivial, trivial⟩, fun _ => trivial⟩
  | un o f ih =>
    have h1 : (Domain.smooth v).un' o f.dim (f.val env) ↔ unSmooth o f.dim (f.val env) := by
      cases o <;> exact Iff.rfl
    simp only [Expr.Dom, Expr.Smooth, Expr.NoBroadcast, Expr.Uses, Expr.FactFree, h1, ih]
    tauto
  | bin o f g i1 i2 =>
    have h1 : (Domain.smooth v).bin' o f.dim g.dim (f.val env) (g.val env) ↔
        binSmooth o f.dim g.dim (f.val env) (g.val env) ∧ (o = .powf ∨ o = .atan2 → f.dim = g.dim) := by
      cases o <;> simp [Domain.bin', Domain.smooth, binSmooth]
    have h2 : (Expr.bin o f g).NoBroadcast ↔
        f.NoBroadcast ∧ g.NoBroadcast ∧ (o = .powf ∨ o = .atan2 → f.dim = g.dim) := by
      cases o <;> simp [Expr.NoBroadcast]
    simp only [Expr.Dom, Expr.Smooth, Expr.Uses, Expr.FactFree, i1, i2, h1, h2]
    exact ⟨fun ⟨⟨a1, a2, a3, a4⟩, ⟨b1, b2, b3, b4⟩, c, c'⟩ =>
        ⟨⟨a1, b1, c⟩, ⟨a2, b2, c'⟩, ⟨a3, b3⟩, a4, b4⟩,
      fun ⟨⟨a1, b1, c⟩, ⟨a2, b2, c'⟩, ⟨a3, b3⟩, a4, b4⟩ =>
        ⟨⟨a1, a2, a3, a4⟩, ⟨b1, b2, b3, b4⟩, c, c'⟩⟩
  | tern o f g h i1 i2 i3 =>
    have h2 : (Expr.tern o f g h).NoBroadcast ↔
        f.NoBroadcast ∧ g.NoBroadcast ∧ h.NoBroadcast ∧ (o = .ifElse → f.dim = 1 ∧ g.dim = h.dim) := by
      cases o <;> simp [Expr.NoBroadcast]
    simp only [Expr.Dom, Expr.Smooth, Expr.Uses, Expr.FactFree, i1, i2, i3, h2]
    exact ⟨fun ⟨⟨a1, a2, a3, a4⟩, ⟨b1, b2, b3, b4⟩, ⟨e1, e2, e3, e4⟩, c, c'⟩ =>
        ⟨⟨a1, b1, e1, c⟩, ⟨a2, b2, e2, c'⟩, ⟨a3, b3, e3⟩, a4, b4, e4⟩,
      fun ⟨⟨a1, b1, e1, c⟩, ⟨a2, b2, e2, c'⟩, ⟨a3, b3, e3⟩, a4, b4, e4⟩ =>
        ⟨⟨a1, a2, a3, a4⟩, ⟨b1, b2, b3, b4⟩, ⟨e1, e2, e3, e4⟩, c, c'⟩⟩
  | fact => exact ⟨fun h => absurd h.1 id, fun h => absurd h.2.2.2 id⟩

theorem unSmooth_def {o : Un} {d : Nat} {x : Vec} (h : unSmooth o d x) : unDef o d x := by
  cases o <;> first
    | trivial
    | exact h
    | exact fun k hk => (h k hk).le
    | exact fun k hk => ⟨(h k hk).1.le, (h k hk).2.le⟩
    | exact h.2

theorem binSmooth_def {o : Bin} {d d' : Nat} {x y : Vec} (h : binSmooth o d d' x y) :
    binDef o d d' x y := by
  cases o <;> first
    | trivial
    | exact h
    | exact fun k hk => (h k hk).elim (fun h => Or.inr h.ne') Or.inl

theorem ternSmooth_def {o : Tern} {m : Nat} {x y z : Vec} (h : ternSmooth o m x y z) :
    ternDef o m x y z := by
  cases o <;> first
    | trivial
    | exact fun k hk => (h k hk).1

/-- A differentiable formula is defined. -/
theorem Expr.Smooth.def {e : Expr} {env : Env} (h : e.Smooth env) : e.Def env := by
  induction e generalizing env with
  | var | zero | int | rat => trivial
  | un o f ih => exact ⟨ih h.1, unSmooth_def h.2⟩
  | bin o f g i1 i2 => exact ⟨i1 h.1, i2 h.2.1, binSmooth_def h.2.2⟩
  | tern o f g k i1 i2 i3 => exact ⟨i1 h.1, i2 h.2.1, i3 h.2.2.1, ternSmooth_def h.2.2.2⟩
  | fact i d c f g i1 i2 => exact ⟨i2 h.1, i1 h.2⟩

theorem smooth_defined (h : e.Dom (.smooth v) env) : e.Dom .defined env :=
  (e.dom_defined env).mpr (Expr.dom_smooth.mp h).1.def

end Smooth

/-! ## Sums -/

section Sums

variable {M : Type} [AddCommGroup M] [Module ℝ M]

theorem sum_cst (d : Nat) (x : Vec) (t : Nat → M) :
    ∑ k ∈ range d, cst d x k • t k = ∑ k ∈ range d, x k • t k := by
  refine sum_congr rfl fun k hk => ?_
  have hk : k < d := by simpa using hk
  unfold cst
  split
  · rw [show k = 0 by omega]
  · rfl

theorem sum_cstM (d : Nat) (x : Vec) (t : Nat → M) :
    ∑ k ∈ range d, x k • cstM d t k = ∑ k ∈ range d, x k • t k := by
  refine sum_congr rfl fun k hk => ?_
  have hk : k < d := by simpa using hk
  unfold cstM
  split
  · rw [show k = 0 by omega]
  · rfl

theorem sum_range_mul' {β : Type} [AddCommMonoid β] (n d : Nat) (f : Nat → β) :
    ∑ q ∈ range (n * d), f q = ∑ i ∈ range n, ∑ k ∈ range d, f (i * d + k) := by
  induction n with
  | zero => simp
  | succ n ih => rw [Nat.succ_mul, sum_range_succ, ← ih, sum_range_add]

theorem sum_range_slice {β : Type} [AddCommMonoid β] (s n d : Nat) (h : s + n ≤ d) (f : Nat → β) :
    ∑ k ∈ range d, (if s ≤ k ∧ k < s + n then f (k - s) else 0) = ∑ k ∈ range n, f k := by
  obtain ⟨m, rfl⟩ := Nat.exists_eq_add_of_le h
  rw [sum_range_add, sum_range_add]
  have h1 : ∀ k ∈ range s, (if s ≤ k ∧ k < s + n then f (k - s) else 0) = 0 := fun k hk => by
    have : k < s := by simpa using hk
    rw [if_neg (by omega)]
  have h2 : ∀ k ∈ range m, (if s ≤ s + n + k ∧ s + n + k < s + n then f (s + n + k - s) else 0) = 0 :=
    fun k hk => by rw [if_neg (by omega)]
  rw [sum_eq_zero h1, sum_eq_zero h2, zero_add, add_zero]
  refine sum_congr rfl fun k hk => ?_
  have : k < n := by simpa using hk
  rw [if_pos (by omega), Nat.add_sub_cancel_left]

end Sums

/-! ## Pairing with the differential -/

section Pairing

variable {M : Type} [AddCommGroup M] [Module ℝ M] (v : VarId) (env : Env) (δ : Int → Nat → M)

/-- The linear form of the coordinates `R` on the variable `v`. -/
noncomputable def pairV (R : Vec) : M := ∑ k ∈ range v.dim, R k • δ v.ind k

/-- The linear form `G` composed with the differential of `e`. -/
noncomputable def pairE (e : Expr) (G : Vec) : M := ∑ k ∈ range e.dim, G k • e.tan env δ k

/-- `r` represents the linear form `L`. -/
def Res (r : Expr) (L : M) : Prop := ∃ R, At .defined env r v.dim R ∧ pairV v δ R = L

variable {v env δ}

theorem pairV_add (R S : Vec) : pairV v δ (fun k => R k + S k) = pairV v δ R + pairV v δ S := by
  simp only [pairV, add_smul, sum_add_distrib]

theorem pairV_sub (R S : Vec) : pairV v δ (fun k => R k - S k) = pairV v δ R - pairV v δ S := by
  simp only [pairV, sub_smul, sum_sub_distrib]

theorem pairV_neg (R : Vec) : pairV v δ (fun k => -R k) = -pairV v δ R := by
  simp only [pairV, neg_smul, sum_neg_distrib]

theorem pairV_zero : pairV v δ (fun _ => 0) = 0 := by simp [pairV]

theorem pairV_mul (R : Vec) (c : ℝ) : pairV v δ (fun k => R k * c) = c • pairV v δ R := by
  simp only [pairV, smul_sum, smul_smul, mul_comm]

theorem Res.zero (hv : 0 < v.dim) : Res v env δ (.zero v.dim) (0 : M) :=
  ⟨fun _ => 0, ⟨hv, rfl, trivial, fun _ => rfl⟩, pairV_zero⟩

theorem Res.add {a b r : Expr} {L L' : M} {n : Nat} (ha : Res v env δ a L) (hb : Res v env δ b L')
    (h : build n (.add a b) = .ok r) : Res v env δ r (L + L') := by
  obtain ⟨R, h1, rfl⟩ := ha
  obtain ⟨S, h2, rfl⟩ := hb
  exact ⟨_, (h1.add h2 h).congr (by simp) fun _ => rfl, pairV_add R S⟩

theorem Res.sub {a b r : Expr} {L L' : M} {n : Nat} (ha : Res v env δ a L) (hb : Res v env δ b L')
    (h : build n (.sub a b) = .ok r) : Res v env δ r (L - L') := by
  obtain ⟨R, h1, rfl⟩ := ha
  obtain ⟨S, h2, rfl⟩ := hb
  exact ⟨_, (h1.sub h2 h).congr (by simp) fun _ => rfl, pairV_sub R S⟩

theorem Res.minus {a r : Expr} {L : M} {n : Nat} (ha : Res v env δ a L)
    (h : build n (.minus a) = .ok r) : Res v env δ r (-L) := by
  obtain ⟨R, h1, rfl⟩ := ha
  exact ⟨_, h1.minus h, pairV_neg R⟩

theorem Res.zeroAdd {a r : Expr} {L : M} {n : Nat} (ha : Res v env δ a L)
    (h : build n (.add (intCst 0) a) = .ok r) : Res v env δ r L := by
  obtain ⟨R, h1, rfl⟩ := ha
  have := h1.pos
  exact ⟨R, (At.add (At.int 0) h1 h).congr (by omega) fun _ => by simp, rfl⟩

theorem Res.mulScalar {a b r : Expr} {L : M} {n : Nat} {W : Vec} (ha : Res v env δ a L)
    (hb : At .defined env b 1 W) (h : build n (.mul a b) = .ok r) : Res v env δ r (W 0 • L) := by
  obtain ⟨R, h1, rfl⟩ := ha
  have := h1.pos
  refine ⟨_, (h1.mul hb h).congr (by omega) fun k => ?_, pairV_mul R (W 0)⟩
  rw [hb.const rfl k 0]

theorem Res.scalarMul {a b r : Expr} {L : M} {n : Nat} {W : Vec} (hb : At .defined env b 1 W)
    (ha : Res v env δ a L) (h : build n (.mul b a) = .ok r) : Res v env δ r (W 0 • L) := by
  obtain ⟨R, h1, rfl⟩ := ha
  have := h1.pos
  refine ⟨_, (hb.mul h1 h).congr (by omega) fun k => ?_, pairV_mul R (W 0)⟩
  rw [hb.const rfl k 0, mul_comm]

theorem Res.divScalar {a b r : Expr} {L : M} {n : Nat} {W : Vec} (ha : Res v env δ a L)
    (hb : At .defined env b 1 W) (hz : W 0 ≠ 0) (h : build n (.div a b) = .ok r) :
    Res v env δ r ((W 0)⁻¹ • L) := by
  obtain ⟨R, h1, rfl⟩ := ha
  have := h1.pos
  refine ⟨_, (h1.div hb (fun k _ => by rw [hb.const rfl k 0]; exact hz) h).congr (by omega)
    fun k => ?_, pairV_mul R (W 0)⁻¹⟩
  rw [hb.const rfl k 0, div_eq_mul_inv]

theorem pairE_congr {e : Expr} {G H : Vec} (h : ∀ k < e.dim, G k = H k) :
    pairE env δ e G = pairE env δ e H :=
  sum_congr rfl fun k hk => by rw [h k (by simpa using hk)]

theorem pairE_one {e : Expr} (hd : e.dim = 1) (G : Vec) :
    pairE env δ e G = G 0 • e.tan env δ 0 := by simp [pairE, hd]

end Pairing

end Verif
