import Verif.Proofs.SmoothNear
import Verif.Proofs.DiffDeg
import Verif.Proofs.ChunkFormula
import Verif.Props.Backward
import Verif.Props.EndToEnd
import Verif.Model.BackwardCall
import Verif.Spec.BackwardCall

/-!
# Execution of gradient reductions
-/

namespace Verif

open Finset Spec Filter Topology

section Read

variable {l : List (Int × Nat × Int)} {args : Nat → Nat → ℝ}

/-- Positions are not negative, categories are 0, 1 and 2, and a position has one variable. -/
structure PlainVars (l : List (Int × Nat × Int)) : Prop where
  pos : ∀ v ∈ l, 0 ≤ v.1
  cat : ∀ v ∈ l, v.2.2 = 0 ∨ v.2.2 = 1 ∨ v.2.2 = 2
  unique : ∀ u ∈ l, ∀ v ∈ l, u.1 = v.1 → u = v

theorem find_var (h : PlainVars l) {u : Int × Nat × Int} (hu : u ∈ l) : (l.find? fun w => w.1 = u.1) = some u := by
  cases hf : l.find? fun w => w.1 = u.1 with
  | none => exact absurd (List.find?_eq_none.mp hf u hu) (by simp)
  | some w =>
    have h1 : w.1 = u.1 := by simpa using List.find?_some hf
    rw [h.unique w (List.mem_of_find?_eq_some hf) u hu h1]

theorem readEnv_at (h : PlainVars l) {u : Int × Nat × Int} (hu : u ∈ l) (p : Nat × Nat) (k : Nat) :
    readEnv l args p u.1 k = if k < u.2.1 then args u.1.toNat (rowAt u.2.2 p * u.2.1 + k) else 0 := by
  simp only [readEnv, find_var h hu]

theorem row_pair {tagI i j : Nat} (ht : tagI < 2) {c : Int} (hc : c = 0 ∨ c = 1 ∨ c = 2) :
    row tagI i j c.toNat = rowAt c (pairAt tagI i j) := by
  obtain rfl | rfl : tagI = 0 ∨ tagI = 1 := by omega
  all_goals rcases hc with rfl | rfl | rfl <;> simp [row, rowAt, pairAt]

/-- The call of a formula is well formed, and its terms are the values of the formula. -/
theorem call_env {V : Type} {enc : ℝ → V} {dec : V → ℝ} (hdec : ∀ x, dec (enc x) = x) {r : Expr} {axis m n : Nat}
    (hl : PlainVars l) (hw : r.WF) (hf : r.FactFree)
    (hv : ∀ t ∈ r.vars, t ∈ l) (ht : axis < 2)
    (hd : ∀ i < m, ∀ j < n, r.Def (readEnv l args (i, j))) {M : CMath} (hM : M.Exact) (junk : Expr → Nat → ℝ) :
    WfProblem (r.call enc dec M junk axis m n fun p q => enc (args p q)) ∧
    ∀ i < outRows axis m n, ∀ j < redRows axis m n, ∀ k < r.dim,
      F (r.call enc dec M junk axis m n fun p q => enc (args p q)) i j k =
        enc (r.val (readEnv l args (pairAt axis i j)) k) := by
  have hg : GoodVars r.vars := ⟨fun v h _ => hl.pos v (hv v h),
    fun v h => by have := hl.cat v (hv v h); omega, fun u hu v hv' _ _ e => hl.unique u (hv u hu) v (hv v hv') e⟩
  refine ⟨call_wf hg ht, fun i hi j hj k hk => ?_⟩
  obtain ⟨h1, h2⟩ := pairAt_lt hi hj
  have h3 := hd _ h1 _ h2
  rw [Prod.mk.eta] at h3
  refine call_value (enc := enc) (dec := dec) hM hg hw hf.named (fun v h => ?_) h3 (fun v h k hk => ?_) hk
  · have := hl.cat v (hv v (Expr.free_vars h))
    omega
  · rw [readEnv_at hl (hv v (Expr.free_vars h)), if_pos hk, row_pair ht (hl.cat v (hv v (Expr.free_vars h))), hdec]

/-- The output of an execution of the sum of a formula. -/
theorem sum_exec {r : Expr} {axis m n : Nat} (hl : PlainVars l) (hw : r.WF) (hf : r.FactFree)
    (hv : ∀ t ∈ r.vars, t ∈ l) (ht : axis < 2)
    (hd : ∀ i < m, ∀ j < n, r.Def (readEnv l args (i, j))) (sch : SumScheme) :
    ∃ S, getScheme (sumRed (V := ℝ) r.dim) sch = some S ∧ ∀ (M : CMath), M.Exact → ∀ junk out out',
      Exec (sumRed r.dim) S (r.call id id M junk axis m n args) out out' →
      ∀ q < outRows axis m n, ∀ k < r.dim, out' (q * r.dim + k) = sumRow r axis m n (readEnv l args) q k := by
  obtain ⟨S, hS, hsum⟩ := C09_sum ℝ r.dim sch
  refine ⟨S, hS, fun M hM junk out out' he q hq k hk => ?_⟩
  obtain ⟨h1, h2⟩ := call_env (enc := id) (dec := id) (fun _ => rfl) hl hw hf hv ht hd hM junk
  rw [(hsum _ h1 out out' he).1 q hq k hk]
  exact sum_congr rfl fun s hs => h2 q hq s (mem_range.mp hs) k hk

/-- Values of the variables when one array is replaced. -/
theorem readEnv_point (hl : PlainVars l) {v : VarId} (hv : (v.ind, v.dim, v.cat) ∈ l) {args' : Nat → Nat → ℝ}
    (ho : ∀ q, q ≠ v.ind.toNat → args' q = args q) (p : Nat × Nat) :
    readEnv l args' p = point (readEnv l args) v (fun r k => args' v.ind.toNat (r * v.dim + k)) p := by
  funext w k
  by_cases hw : w = v.ind
  · subst hw
    rw [readEnv_at hl hv]
    simp only [point, setVar, Function.update_self]
    split
    · rfl
    · rfl
  · rw [point_other _ _ _ _ hw]
    unfold readEnv
    split
    · rename_i u hu
      have h1 : u.1 = w := by simpa using List.find?_some hu
      have hm := List.mem_of_find?_eq_some hu
      have h2 : u.1.toNat ≠ v.ind.toNat := by
        have := hl.pos u hm
        have := hl.pos _ hv
        simp only at this
        omega
      rw [ho _ h2]
    · rfl

end Read

theorem smooth_agree {e : Expr} (hf : e.FactFree) {env env' : Env} (h : ∀ v ∈ e.vars, env' v.1 = env v.1)
    (hd : e.Smooth env) : e.Smooth env' := by
  induction e with
  | var | zero | int | rat => trivial
  | un o f ih => exact ⟨ih hf h hd.1, by rw [Expr.val_agree (e := f) hf h]; exact hd.2⟩
  | bin o f g i1 i2 =>
    have h1 : ∀ v ∈ f.vars, env' v.1 = env v.1 := fun v hv => h v (List.mem_append_left _ hv)
    have h2 : ∀ v ∈ g.vars, env' v.1 = env v.1 := fun v hv => h v (List.mem_append_right _ hv)
    exact ⟨i1 hf.1 h1 hd.1, i2 hf.2 h2 hd.2.1, by
      rw [Expr.val_agree hf.1 h1, Expr.val_agree hf.2 h2]; exact hd.2.2⟩
  | tern o f g k i1 i2 i3 =>
    have h1 : ∀ v ∈ f.vars, env' v.1 = env v.1 := fun v hv => h v (List.mem_append_left _ hv)
    have h2 : ∀ v ∈ g.vars, env' v.1 = env v.1 :=
      fun v hv => h v (List.mem_append_right _ (List.mem_append_left _ hv))
    have h3 : ∀ v ∈ k.vars, env' v.1 = env v.1 :=
      fun v hv => h v (List.mem_append_right _ (List.mem_append_right _ hv))
    exact ⟨i1 hf.1 h1 hd.1, i2 hf.2.1 h2 hd.2.1, i3 hf.2.2 h3 hd.2.2.1, by
      rw [Expr.val_agree hf.1 h1, Expr.val_agree hf.2.1 h2, Expr.val_agree hf.2.2 h3]; exact hd.2.2.2⟩
  | fact => exact hf.elim

/-- The variables of a formula are those of a list where `v` is the only one of its index. -/
theorem uses_of_vars {e : Expr} (hf : e.FactFree) {v : VarId}
    (h : ∀ u ∈ e.vars, u.1 = v.ind → u.2.1 = v.dim ∧ u.2.2 = v.cat) : e.Uses v := by
  induction e with
  | var i d c => exact h (i, d, c) (List.mem_singleton.mpr rfl)
  | zero | int | rat => trivial
  | un o f ih => exact ih hf h
  | bin o f g i1 i2 =>
    exact ⟨i1 hf.1 fun u hu => h u (List.mem_append_left _ hu), i2 hf.2 fun u hu => h u (List.mem_append_right _ hu)⟩
  | tern o f g k i1 i2 i3 =>
    exact ⟨i1 hf.1 fun u hu => h u (List.mem_append_left _ hu),
      i2 hf.2.1 fun u hu => h u (List.mem_append_right _ (List.mem_append_left _ hu)),
      i3 hf.2.2 fun u hu => h u (List.mem_append_right _ (List.mem_append_right _ hu))⟩
  | fact => exact hf.elim

/-- The values of the variables depend on the arrays by differentiable functions. -/
theorem moved_deriv {l : List (Int × Nat × Int)} {args : Nat → Nat → ℝ} (p : Nat × Nat) (q : Nat) (δ : Nat → ℝ) :
    ∃ L : Int → Nat → (ℝ →L[ℝ] ℝ), ∀ i k, HasFDerivAt (fun τ => readEnv l (moved args q δ τ) p i k) (L i k) 0 := by
  have : ∀ i k, ∃ L : ℝ →L[ℝ] ℝ, HasFDerivAt (fun τ => readEnv l (moved args q δ τ) p i k) L 0 := by
    intro i k
    have hd : DifferentiableAt ℝ (fun τ => readEnv l (moved args q δ τ) p i k) 0 := by
      unfold readEnv moved
      split
      · split
        · split
          · exact (differentiableAt_const _).add (differentiableAt_id.mul_const _)
          · exact differentiableAt_const _
        · exact differentiableAt_const _
      · exact differentiableAt_const _
    exact ⟨_, hd.hasFDerivAt⟩
  choose L hL using this
  exact ⟨L, hL⟩

/-- Near the arrays where a formula is differentiable, it is defined. -/
theorem moved_near {e : Expr} (hw : e.WF) (hf : e.FactFree) {l : List (Int × Nat × Int)} {args : Nat → Nat → ℝ}
    (p : Nat × Nat) (q : Nat) (δ : Nat → ℝ) (hs : e.Smooth (readEnv l args p)) :
    ∀ᶠ τ in 𝓝 (0 : ℝ), e.Def (readEnv l (moved args q δ τ) p) := by
  have h0 : moved args q δ 0 = args := by funext a k; simp [moved]
  obtain ⟨L, hL⟩ := moved_deriv (l := l) (args := args) p q δ
  exact Expr.Smooth.near (x₀ := (0 : ℝ)) (F := fun τ => readEnv l (moved args q δ τ) p) hw hf hL (by rw [h0]; exact hs)

section Grad

variable {l : List (Int × Nat × Int)} {extra : List (Int × Nat × Int)} {args : Nat → Nat → ℝ} {G res : Nat → ℝ} {nargs : Nat}

/-- The variables of the formula read the arguments of the call. -/
theorem readEnv_gradArgs (hl : PlainVars (l ++ extra)) (hn : ∀ u ∈ l, u.1 < nargs) (p : Nat × Nat)
    {u : Int × Nat × Int} (hu : u ∈ l) :
    readEnv (l ++ extra) (gradArgs nargs args G res) p u.1 = readEnv l args p u.1 := by
  have hl0 : PlainVars l := ⟨fun v h => hl.pos v (List.mem_append_left _ h), fun v h => hl.cat v (List.mem_append_left _ h),
    fun a ha b hb => hl.unique a (List.mem_append_left _ ha) b (List.mem_append_left _ hb)⟩
  funext k
  rw [readEnv_at hl (List.mem_append_left _ hu), readEnv_at hl0 hu]
  have := hl.pos u (List.mem_append_left _ hu)
  have := hn u hu
  simp only [gradArgs]
  rw [if_pos (show u.1.toNat < nargs by omega)]

theorem gradArgs_moved {q : Nat} (hq : q < nargs) (δ : Nat → ℝ) (τ : ℝ) :
    gradArgs nargs (moved args q δ τ) G res = moved (gradArgs nargs args G res) q δ τ := by
  funext a k
  unfold gradArgs moved
  by_cases h : a = q
  · subst h
    simp [hq]
  · simp only [h, if_false]

/-- With one more variable, for the gradient. -/
theorem PlainVars.eta (hl : PlainVars l) (hn : ∀ u ∈ l, u.1 < nargs) (d : Nat) {tagI : Nat} (ht : tagI < 2) :
    PlainVars (l ++ [((nargs : Int), d, (tagI : Int))]) where
  pos v h := by
    rcases List.mem_append.mp h with h | h
    · exact hl.pos v h
    · rw [List.mem_singleton.mp h]; exact Int.natCast_nonneg _
  cat v h := by
    rcases List.mem_append.mp h with h | h
    · exact hl.cat v h
    · rw [List.mem_singleton.mp h]
      simp only
      omega
  unique u hu v hv e := by
    rcases List.mem_append.mp hu with h1 | h1 <;> rcases List.mem_append.mp hv with h2 | h2
    · exact hl.unique u h1 v h2 e
    · rw [List.mem_singleton.mp h2] at e
      have := hn u h1
      simp only at e
      omega
    · rw [List.mem_singleton.mp h1] at e
      have := hn v h2
      simp only at e
      omega
    · rw [List.mem_singleton.mp h1, List.mem_singleton.mp h2]

end Grad

/-- The gradient of an argument, from the output of the gradient reduction. -/
theorem collapse_exec {v : VarId} (hc : v.cat = 0 ∨ v.cat = 1 ∨ v.cat = 2) {m n : Nat} {g : Mem ℝ} :
    ∃ a, collapse v.cat (tailShape v.cat (if v.cat = 1 then n else m) v.dim)
        (asArr (if v.cat = 1 then n else m) v.dim g) = some a ∧
      a.shape = tailShape v.cat (if v.cat = 1 then n else m) v.dim ∧
      ∀ δ : Nat → ℝ, (sumIdx a.shape fun idx => a.get idx * δ (ravel a.shape idx)) =
        dotGrad v m n (fun q k => g (q * v.dim + k)) fun r k => δ (r * v.dim + k) := by
  set rows := if v.cat = 1 then n else m with hrows
  obtain ⟨a, ha, hs, hadj⟩ := C40_adjoint (c := v.cat) (xb := []) (batch := []) (rows := rows) (d := v.dim) .nil
    (g := asArr rows v.dim g) rfl
  refine ⟨a, ha, hs, fun δ => ?_⟩
  have := hadj ⟨tailShape v.cat rows v.dim, fun idx => δ (ravel (tailShape v.cat rows v.dim) idx)⟩ rfl
  rw [hs] at this ⊢
  refine this.trans ?_
  simp only [sumIdx, dotGrad, ← hrows]
  refine sum_congr rfl fun r hr => ?_
  rw [← Fin.sum_univ_eq_sum_range (fun k => (asArr rows v.dim g).get ([] ++ [r, k]) *
    Arr.at' ⟨tailShape v.cat rows v.dim, fun idx => δ (ravel (tailShape v.cat rows v.dim) idx)⟩
      ([] ++ if v.cat = 2 then [k] else [r, k]))]
  refine sum_congr rfl fun k _ => ?_
  have hr := mem_range.mp hr
  have hk := k.2
  have e1 : (if v.dim = 1 then 0 else (k : Nat)) = k := by split <;> omega
  have e2 : (if rows = 1 then 0 else r) = r := by split <;> omega
  by_cases h2 : v.cat = 2
  · simp [asArr, Arr.at', clip, tailShape, h2, ravel, e1]
  · simp [asArr, Arr.at', clip, tailShape, h2, ravel, e1, e2]

/-- The gradient is a formula whose operands have the right dimensions. -/
theorem grads_wf {e gradin r : Expr} {v : VarId} (hv : 0 < v.dim) (he : e.WF)
    (hf : e.FactFree) (hn : e.NoBroadcast) (hu : e.Uses v) (hg : gradin.WF) (hd : gradin.dim = e.dim)
    (h : Grads e v gradin r) (env : Env) (x : Fin v.dim → ℝ)
    (hs : e.Smooth (setVar env v x)) (hgd : gradin.Def (setVar env v x)) : r.WF := by
  obtain ⟨n, h⟩ := h
  obtain ⟨R, hR, -⟩ := diffT_res (F := fun y => setVar env v y) (x₀ := x) hv (setVar_hasFDerivAt env v x)
    (fun i k hi => by simp only [hi, if_false]) he
    (Expr.dom_smooth.mpr ⟨hs, hn, hu, hf⟩)
    (G := gradin.val (setVar env v x))
    ⟨hg, hd, (gradin.dom_defined _).mpr hgd, fun _ => rfl⟩ h
  exact hR.wf

theorem term_vars_pos {t : Term} (hp : t.Pos) : ∀ u ∈ t.vars, 0 < u.2.1 := by
  induction t <;> simp only [Term.vars, Term.Pos, List.mem_append, List.mem_singleton, List.not_mem_nil] at hp ⊢ <;>
    grind

/-- The gradient kernel, and the array returned for the argument `v`: its scalar product with a direction is that of
the sums of the gradient formula. -/
theorem grad_run {l : List (Int × Nat × Int)} {argsG : Nat → Nat → ℝ} {p gradin r : Expr} {v : VarId} {axis m n : Nat}
    (hl : PlainVars l) (hv : (v.ind, v.dim, v.cat) ∈ l) (hvd : 0 < v.dim) (hm : 0 < m) (hn : 0 < n)
    (hw : p.WF) (hf : p.FactFree) (hp : p.NoBroadcast) (hu : p.Uses v) (hpv : ∀ t ∈ p.vars, t ∈ l)
    (hs : ∀ i < m, ∀ j < n, p.Smooth (readEnv l argsG (i, j)))
    (gw : gradin.WF) (gf : gradin.FactFree) (gd : gradin.dim = p.dim) (gv : ∀ t ∈ gradin.vars, t ∈ l)
    (gdef : ∀ i < m, ∀ j < n, gradin.Def (readEnv l argsG (i, j)))
    (hgr : Grads p v gradin r) (hax : axis = if v.cat = 1 then 1 else 0) (sch : SumScheme) :
    r.dim = v.dim ∧ ∃ S, getScheme (sumRed (V := ℝ) r.dim) sch = some S ∧ ∀ (M : CMath), M.Exact → ∀ junk o g,
      Exec (sumRed r.dim) S (r.call id id M junk axis m n argsG) o g →
      ∃ a, (∀ sigs shapes gradOf, sigs[v.ind.toNat]? = some v →
          shapes[v.ind.toNat]? = some (tailShape v.cat (if v.cat = 1 then n else m) v.dim) →
          gradOf v = asArr (if v.cat = 1 then n else m) v.dim g →
          (backward sigs shapes gradOf)[v.ind.toNat]? = some (some a)) ∧
        a.shape = tailShape v.cat (if v.cat = 1 then n else m) v.dim ∧
        ∀ δ : Nat → ℝ, (sumIdx a.shape fun idx => a.get idx * δ (ravel a.shape idx)) =
          dotGrad v m n (sumRow r axis m n (readEnv l argsG)) fun r k => δ (r * v.dim + k) := by
  have hcat := hl.cat _ hv
  simp only at hcat
  set base := readEnv l argsG with hbase
  set x : Nat → Fin v.dim → ℝ := fun r k => argsG v.ind.toNat (r * v.dim + k) with hx
  have hself : ∀ p, base p = point base v x p := readEnv_point hl hv (args := argsG) (args' := argsG) fun _ _ => rfl
  have hsm : ∀ i < m, ∀ j < n, p.Smooth (point base v x (i, j)) := fun i hi j hj => by rw [← hself]; exact hs i hi j hj
  have hgd : ∀ i < m, ∀ j < n, gradin.Def (point base v x (i, j)) := fun i hi j hj => by
    rw [← hself]; exact gdef i hi j hj
  have hax2 : axis < 2 := by rw [hax]; split <;> omega
  have hgrad := fun i (hi : i < m) j (hj : j < n) => C04_grad_partial hvd hw hf hp hu
    gw gd hgr (base (i, j)) (x (rowAt v.cat (i, j))) (hsm i hi j hj) (hgd i hi j hj)
  have hrd : r.dim = v.dim := by
    obtain ⟨L, -, h1⟩ := hgrad 0 hm 0 hn
    exact h1.1
  have hrw : r.WF := grads_wf hvd hw hf hp hu gw gd hgr
    (base (0, 0)) (x (rowAt v.cat (0, 0))) (hsm 0 hm 0 hn) (hgd 0 hm 0 hn)
  obtain ⟨NN, hgr'⟩ := hgr
  have hrf : r.FactFree := diffT_factFree hw hf gf hgr'
  have hrv : ∀ u ∈ r.vars, u ∈ l := fun u hu => by
    rcases diffT_vars hw hf gf hgr' hu with h1 | h1
    · exact hpv u h1
    · exact gv u h1
  obtain ⟨S, hS, hback⟩ := sum_exec (args := argsG) hl hrw hrf hrv hax2 (m := m) (n := n) (fun i hi j hj => by
    obtain ⟨L, -, h1⟩ := hgrad i hi j hj
    have := h1.2.1
    rw [← hbase, hself]
    exact this) sch
  refine ⟨hrd, S, hS, fun M hM junk o g he => ?_⟩
  obtain ⟨a, ha, hsh, hadj⟩ := collapse_exec hcat (m := m) (n := n) (g := g)
  refine ⟨a, fun sigs shapes gradOf h1 h2 h3 => ?_, hsh, fun δ => ?_⟩
  · rw [backward, List.getElem?_zipWith, h1, h2]
    simp only [h3, ha]
  rw [hadj]
  have hrows : (if v.cat = 1 then n else m) = outRows axis m n := by
    rw [hax]
    rcases hcat with h | h | h <;> simp [h, outRows]
  unfold dotGrad
  refine sum_congr rfl fun b hb => sum_congr rfl fun k _ => ?_
  rw [hrows] at hb
  have := hback M hM junk o g he b (mem_range.mp hb) k (by rw [hrd]; exact k.2)
  rw [hrd] at this
  simp only
  rw [this]

/-- The environment of a direction. -/
theorem readEnv_moved {l extra : List (Int × Nat × Int)} {args : Nat → Nat → ℝ} {G res : Nat → ℝ} {nargs : Nat}
    (hl : PlainVars (l ++ extra)) {v : VarId} (hv : (v.ind, v.dim, v.cat) ∈ l ++ extra) (hq : v.ind.toNat < nargs)
    (δ : Nat → ℝ) (τ : ℝ) (p : Nat × Nat) :
    readEnv (l ++ extra) (gradArgs nargs (moved args v.ind.toNat δ τ) G res) p =
      point (readEnv (l ++ extra) (gradArgs nargs args G res)) v
        (line (fun r k => gradArgs nargs args G res v.ind.toNat (r * v.dim + k)) (fun r k => δ (r * v.dim + k)) τ) p := by
  rw [gradArgs_moved hq, readEnv_point hl hv (args := gradArgs nargs args G res)
    (fun q hq => by funext k; simp [moved, hq])]
  congr 1
  funext r k
  simp [moved, line]

/-- Values of formulas depend continuously on the arrays. -/
theorem moved_cont {e : Expr} (hw : e.WF) (hf : e.FactFree) {l : List (Int × Nat × Int)} {args : Nat → Nat → ℝ}
    (p : Nat × Nat) (q : Nat) (δ : Nat → ℝ) (hs : e.Smooth (readEnv l args p)) {k : Nat} (hk : k < e.dim) :
    ContinuousAt (fun τ => e.val (readEnv l (moved args q δ τ) p) k) 0 := by
  have h0 : moved args q δ 0 = args := by funext a k; simp [moved]
  obtain ⟨L, hL⟩ := moved_deriv (l := l) (args := args) p q δ
  exact (Expr.hasFDerivAt (x₀ := (0 : ℝ)) (F := fun τ => readEnv l (moved args q δ τ) p) hw hf hL
    (by rw [h0]; exact hs) (.inl hk)).continuousAt

/-- The raw output of a log-sum-exp: a shift, and the shifted sums. -/
theorem lse_raw {l : List (Int × Nat × Int)} {args : Nat → Nat → ℝ} {f w : Expr} {tagI m n : Nat} (hl : PlainVars l)
    (wf : f.WF) (ww : w.WF) (h1 : f.dim = 1) (ff : f.FactFree) (fw : w.FactFree)
    (vf : ∀ t ∈ f.vars, t ∈ l) (vw : ∀ t ∈ w.vars, t ∈ l) (ht : tagI < 2) (hne : 0 < redRows tagI m n)
    (df : ∀ i < m, ∀ j < n, f.Def (readEnv l args (i, j))) (dw : ∀ i < m, ∀ j < n, w.Def (readEnv l args (i, j)))
    {g : ℝ → XR} {S : Scheme XR} {B Gd}
    (hL : LawfulScheme False (@lseRed XR (xrNum g) w.dim) S (LseAcc w.dim) B Gd)
    {M : CMath} (hM : M.Exact) {junk : Expr → Nat → ℝ} {out out' : Mem XR}
    (he : Exec (@lseRed XR (xrNum g) w.dim) S ((Expr.bin .concat f w).call XR.fin XR.val M junk tagI m n
      fun p q => XR.fin (args p q)) out out') {i : Nat} (hi : i < outRows tagI m n) :
    ∃ c : ℝ, out' (i * (1 + w.dim)) = XR.fin c ∧ ∀ k < w.dim, out' (i * (1 + w.dim) + (1 + k)) =
      XR.fin (∑ s ∈ range (redRows tagI m n), Real.exp (f.val (readEnv l args (pairAt tagI i s)) 0 - c) *
        w.val (readEnv l args (pairAt tagI i s)) k) := by
  have hacc : Bin.concat.accept f.dim w.dim = true := rfl
  have hd : (Expr.bin .concat f w).dim = 1 + w.dim := by simp only [Expr.dim, Bin.dim, h1]
  have hw0 := ww.pos
  obtain ⟨hP, hF⟩ := call_env (enc := XR.fin) (dec := XR.val) (fun _ => rfl) (r := .bin .concat f w) (m := m) (n := n) hl
    ⟨wf, ww, hacc, by show 0 < (Expr.bin .concat f w).dim; omega⟩ ⟨ff, fw⟩
    (fun t ht => (List.mem_append.mp ht).elim (vf t) (vw t)) ht
    (fun i hi j hj => ⟨df i hi j hj, dw i hi j hj, trivial⟩) hM junk
  rw [hd] at hF
  have h2 : ∀ i < outRows tagI m n, ∀ j < redRows tagI m n,
      F ((Expr.bin .concat f w).call XR.fin XR.val M junk tagI m n fun p q => XR.fin (args p q)) i j 0 =
        XR.fin (f.val (readEnv l args (pairAt tagI i j)) 0) := fun i hi j hj => by
    rw [hF i hi j hj 0 (by omega)]
    simp only [Expr.val, binVal, h1]
    rw [cst_eq (by omega), if_pos (by omega)]
  have h3 : ∀ i < outRows tagI m n, ∀ j < redRows tagI m n, ∀ k < w.dim,
      F ((Expr.bin .concat f w).call XR.fin XR.val M junk tagI m n fun p q => XR.fin (args p q)) i j (1 + k) =
        XR.fin (w.val (readEnv l args (pairAt tagI i j)) k) := fun i hi j hj k hk => by
    rw [hF i hi j hj (1 + k) (by omega)]
    simp only [Expr.val, binVal, h1]
    rw [cst_eq (by omega), if_neg (by omega), Nat.add_sub_cancel_left]
  have hfin : FiniteTerms ((Expr.bin .concat f w).call XR.fin XR.val M junk tagI m n fun p q => XR.fin (args p q)) w.dim :=
    fun i hi j hj k hk => by rw [hF i hi j hj k hk]; rfl
  obtain ⟨c, e1, -, -, e2⟩ := lse_acc hL hP hne hfin he hi
  refine ⟨c, e1, fun k hk => (e2 k hk).trans ?_⟩
  congr 1
  refine sum_congr rfl fun s hs => ?_
  simp only [score, weight]
  rw [h2 i hi s (mem_range.mp hs), h3 i hi s (mem_range.mp hs) k hk]
  rfl

end Verif
