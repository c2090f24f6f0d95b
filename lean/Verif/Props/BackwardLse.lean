import Verif.Props.BackwardCall
import Verif.Props.EndToEndRows

/-!
# C63 for log-sum-exp and softmax-weighted sums
-/

namespace Verif

open Finset Spec Filter Topology

/-- A call of a log-sum-exp, or of a softmax-weighted sum, whose gradient with respect to the argument `v` is asked for:
expressions `tf` (scalar) and `tw` (weights), the formulas `f` and `w` that are run for them, and arrays at which they are
differentiable. -/
structure BackWeight (tf tw : Term) (f w : Expr) (v : VarId) (tagI m n nargs : Nat) (args : Nat → Nat → ℝ) : Prop where
  pos : tf.Pos ∧ tw.Pos
  inputs : (Term.bin .concat tf tw).Inputs
  score : ∃ N, tf.compile N = .ok f
  weight : ∃ N, tw.compile N = .ok w
  dim : f.dim = 1
  tag : tagI < 2
  rows : 0 < m ∧ 0 < n
  var : (v.ind, v.dim, v.cat) ∈ (Term.bin .concat tf tw).vars
  count : ∀ u ∈ (Term.bin .concat tf tw).vars, u.1 < nargs
  plain : f.NoBroadcast ∧ w.NoBroadcast
  smooth : ∀ i < m, ∀ j < n, f.Smooth (readEnv (Term.bin .concat tf tw).vars args (i, j)) ∧
    w.Smooth (readEnv (Term.bin .concat tf tw).vars args (i, j))

/-- A formula of variables `l`, differentiable at the arrays. -/
structure Part (l : List (Int × Nat × Int)) (v : VarId) (m n : Nat) (args : Nat → Nat → ℝ) (f : Expr) : Prop where
  wf : f.WF
  ff : f.FactFree
  vars : ∀ t ∈ f.vars, t ∈ l
  plain : f.NoBroadcast
  uses : f.Uses v
  smooth : ∀ i < m, ∀ j < n, f.Smooth (readEnv l args (i, j))

theorem Part.near {l : List (Int × Nat × Int)} {v : VarId} {m n : Nat} {args : Nat → Nat → ℝ} {f : Expr}
    (h : Part l v m n args f) (q : Nat) (δ : Nat → ℝ) :
    ∀ᶠ τ in 𝓝 (0 : ℝ), ∀ i < m, ∀ j < n, f.Def (readEnv l (moved args q δ τ) (i, j)) := by
  have : ∀ᶠ τ in 𝓝 (0 : ℝ), ∀ i ∈ range m, ∀ j ∈ range n, f.Def (readEnv l (moved args q δ τ) (i, j)) :=
    (eventually_all_finset _).mpr fun i hi => (eventually_all_finset _).mpr fun j hj =>
      moved_near h.wf h.ff (i, j) q δ (h.smooth i (mem_range.mp hi) j (mem_range.mp hj))
  filter_upwards [this] with τ hτ i hi j hj
  exact hτ i (mem_range.mpr hi) j (mem_range.mpr hj)

section

variable {tf tw : Term} {f w ω r : Expr} {v : VarId} {tagI axis m n nargs : Nat} {args : Nat → Nat → ℝ}

theorem BackWeight.parts (h : BackWeight tf tw f w v tagI m n nargs args) :
    Part (Term.bin .concat tf tw).vars v m n args f ∧ Part (Term.bin .concat tf tw).vars v m n args w := by
  obtain ⟨N, hf⟩ := h.score
  obtain ⟨N', hw⟩ := h.weight
  obtain ⟨ff, vf⟩ := compile_vars h.pos.1 hf
  obtain ⟨fw, vw⟩ := compile_vars h.pos.2 hw
  have vf' : ∀ t ∈ f.vars, t ∈ (Term.bin .concat tf tw).vars := fun t ht => List.mem_append_left _ (vf t ht)
  have vw' : ∀ t ∈ w.vars, t ∈ (Term.bin .concat tf tw).vars := fun t ht => List.mem_append_right _ (vw t ht)
  have hu : ∀ e : Expr, e.FactFree → (∀ t ∈ e.vars, t ∈ (Term.bin .concat tf tw).vars) → e.Uses v :=
    fun e he hv => uses_of_vars he fun u hu hi => by
      rw [h.inputs.unique u (hv u hu) _ h.var hi]
      exact ⟨rfl, rfl⟩
  exact ⟨⟨(compile_rep h.pos.1 hf).wf, ff, vf', h.plain.1, hu f ff vf', fun i hi j hj => (h.smooth i hi j hj).1⟩,
    ⟨(compile_rep h.pos.2 hw).wf, fw, vw', h.plain.2, hu w fw vw', fun i hi j hj => (h.smooth i hi j hj).2⟩⟩

/-- The variables of the formula, of the gradient and of the saved output. -/
def weightVars (l : List (Int × Nat × Int)) (nargs D tagI : Nat) : List (Int × Nat × Int) :=
  l ++ [((nargs : Int), 1 + D, (tagI : Int)), (((nargs + 1 : Nat) : Int), 1 + D, (tagI : Int))]

theorem PlainVars.weight {l : List (Int × Nat × Int)} (hl : PlainVars l) (hn : ∀ u ∈ l, u.1 < nargs) (D : Nat)
    (ht : tagI < 2) : PlainVars (weightVars l nargs D tagI) := by
  have h1 := hl.eta hn (1 + D) ht
  have h2 := h1.eta (nargs := nargs + 1) (fun u hu => by
    rcases List.mem_append.mp hu with h | h
    · have := hn u h
      push_cast
      omega
    · rw [List.mem_singleton.mp h]
      push_cast
      show (nargs : Int) < nargs + 1
      omega) (1 + D) ht
  rwa [List.append_assoc] at h2

theorem struct_dom {l : List (Int × Nat × Int)} {e : Expr} (he : e.FactFree) (hv : ∀ t ∈ e.vars, t ∈ l) {env : Env} :
    e.Dom (structDom (fun i d c => (i, d, c) ∈ l) fun _ => True) env := by
  induction e with
  | var i d c => exact hv _ (List.mem_singleton_self _)
  | zero | int | rat => trivial
  | un o f ih => exact ⟨ih he hv, by cases o <;> trivial⟩
  | bin o f g i1 i2 =>
    exact ⟨i1 he.1 fun t ht => hv t (List.mem_append_left _ ht), i2 he.2 fun t ht => hv t (List.mem_append_right _ ht),
      by cases o <;> trivial⟩
  | tern o f g h i1 i2 i3 =>
    exact ⟨i1 he.1 fun t ht => hv t (List.mem_append_left _ ht),
      i2 he.2.1 fun t ht => hv t (List.mem_append_right _ (List.mem_append_left _ ht)),
      i3 he.2.2 fun t ht => hv t (List.mem_append_right _ (List.mem_append_right _ ht)), trivial⟩
  | fact => exact he.elim

/-- The gradient kernel of a shifted sum. -/
theorem weight_run {l : List (Int × Nat × Int)} (hl : PlainVars l) (hn : ∀ u ∈ l, u.1 < nargs)
    (hv : (v.ind, v.dim, v.cat) ∈ l) (hvd : 0 < v.dim) (ht : tagI < 2) (hm : 0 < m) (hn0 : 0 < n)
    (pf : Part l v m n args f) (pw : Part l v m n args ω) (h1 : f.dim = 1) (E res : Nat → ℝ)
    (hr : RedGrads (.maxSumShiftExp f ω tagI) v (etaVar nargs (1 + ω.dim) tagI) (resVar nargs (1 + ω.dim) tagI)
      (.sum r axis)) (sch : SumScheme) :
    r.dim = v.dim ∧ ∃ S, getScheme (sumRed (V := ℝ) r.dim) sch = some S ∧ ∀ (M : CMath), M.Exact → ∀ junk o g,
      Exec (sumRed r.dim) S (r.call id id M junk axis m n (gradArgs nargs args E res)) o g →
      ∃ a, (∀ sigs shapes gradOf, sigs[v.ind.toNat]? = some v →
          shapes[v.ind.toNat]? = some (tailShape v.cat (rowsOf v m n) v.dim) →
          gradOf v = asArr (rowsOf v m n) v.dim g →
          (backward sigs shapes gradOf)[v.ind.toNat]? = some (some a)) ∧
        a.shape = tailShape v.cat (rowsOf v m n) v.dim ∧
        ∀ δ : Nat → ℝ, (sumIdx a.shape fun idx => a.get idx * δ (ravel a.shape idx)) =
          dotGrad v m n (sumRow r axis m n (readEnv (weightVars l nargs ω.dim tagI) (gradArgs nargs args E res)))
            fun r k => δ (r * v.dim + k) := by
  have hcat := hl.cat _ hv
  have hw0 := pw.wf.pos
  simp only at hcat
  have hvn := hn _ hv
  simp only at hvn
  obtain ⟨N, hr⟩ := hr
  simp only [RedExpr.diffT] at hr
  obtain ⟨p, e1, hr⟩ := bind_ok' hr
  obtain ⟨gs, e2, hr⟩ := bind_ok' hr
  unfold sumDiffT at hr
  obtain ⟨r', e3, hr⟩ := bind_ok' hr
  cases hr
  set l' := weightVars l nargs ω.dim tagI with hl'
  have hpl : PlainVars l' := hl.weight hn ω.dim ht
  have hagree : ∀ p, ∀ u ∈ l, readEnv l' (gradArgs nargs args E res) p u.1 = readEnv l args p u.1 := fun p u hu =>
    readEnv_gradArgs hpl hn p hu
  have hsub : ∀ u ∈ l, u ∈ l' := fun u hu => List.mem_append_left _ hu
  have hηl : ((nargs : Int), 1 + ω.dim, (tagI : Int)) ∈ l' := List.mem_append_right _ (by simp)
  have hul : (((nargs + 1 : Nat) : Int), 1 + ω.dim, (tagI : Int)) ∈ l' := List.mem_append_right _ (by simp)
  have smf : ∀ i < m, ∀ j < n, f.Smooth (readEnv l' (gradArgs nargs args E res) (i, j)) := fun i hi j hj =>
    smooth_agree pf.ff (fun u hu => hagree _ u (pf.vars u hu)) (pf.smooth i hi j hj)
  have smw : ∀ i < m, ∀ j < n, ω.Smooth (readEnv l' (gradArgs nargs args E res) (i, j)) := fun i hi j hj =>
    smooth_agree pw.ff (fun u hu => hagree _ u (pw.vars u hu)) (pw.smooth i hi j hj)
  have hdom : ∀ i < m, ∀ j < n, p.Dom (.smooth v) (readEnv l' (gradArgs nargs args E res) (i, j)) := fun i hi j hj =>
    (shiftExp_at pf.wf pw.wf h1 (Expr.dom_smooth.mpr ⟨smf i hi j hj, pf.plain, pf.uses, pf.ff⟩)
      (Expr.dom_smooth.mpr ⟨smw i hi j hj, pw.plain, pw.uses, pw.ff⟩)
      (fun e => absurd e (by push_cast; omega)) trivial e1).dom
  have hstruct : ∀ e : Expr, e.FactFree → (∀ t ∈ e.vars, t ∈ l') → ∀ env,
      e.Dom (structDom (fun i d c => (i, d, c) ∈ l') fun _ => True) env :=
    fun e he hv env => struct_dom he hv
  have hp : At (structDom (fun i d c => (i, d, c) ∈ l') fun _ => True) (fun _ _ => 0) p ω.dim _ :=
    shiftExp_at pf.wf pw.wf h1 (hstruct f pf.ff (fun t ht => hsub t (pf.vars t ht)) _)
      (hstruct ω pw.ff (fun t ht => hsub t (pw.vars t ht)) _) hul trivial e1
  obtain ⟨-, np, up, fp⟩ := Expr.dom_smooth.mp (hdom 0 hm 0 hn0)
  obtain ⟨-, vp⟩ := dom_struct hp.dom
  rw [h1] at e2
  obtain ⟨rfl, hok⟩ := mkUn_ok e2
  have hgw : (Expr.un (.extract 1 ω.dim) (etaVar nargs (1 + ω.dim) tagI)).WF :=
    ⟨by show 0 < 1 + ω.dim; omega, hok, hw0, fun n h => by cases h⟩
  exact grad_run hpl (hsub _ hv) hvd hm hn0 hp.wf fp np up vp
    (fun i hi j hj => (Expr.dom_smooth.mp (hdom i hi j hj)).1) hgw trivial hp.dim.symm
    (fun t ht => by rw [List.mem_singleton.mp (show t ∈ [_] from ht)]; exact hηl) (fun _ _ _ _ => ⟨trivial, trivial⟩)
    ⟨N, e3⟩ (by rcases hcat with h | h | h <;> simp [VarId.axis, h]) sch

theorem rowAt_lt (ht : tagI = 0 ∨ tagI = 1) {i j : Nat} (hi : i < m) (hj : j < n) :
    rowAt tagI (i, j) < outRows tagI m n := by
  rcases ht with rfl | rfl
  · simpa [rowAt, outRows] using hi
  · simpa [rowAt, outRows] using hj

/-- The rows of the gradient and of the saved output. -/
theorem weight_rows {l : List (Int × Nat × Int)} {D : Nat} (hpl : PlainVars (weightVars l nargs D tagI))
    (E res : Nat → ℝ) (i j : Nat) {k : Nat} (hk : k < 1 + D) :
    readEnv (weightVars l nargs D tagI) (gradArgs nargs args E res) (i, j) nargs k =
        E (rowAt tagI (i, j) * (1 + D) + k) ∧
      readEnv (weightVars l nargs D tagI) (gradArgs nargs args E res) (i, j) (nargs + 1 : Nat) k =
        res (rowAt tagI (i, j) * (1 + D) + k) := by
  have hηl : ((nargs : Int), 1 + D, (tagI : Int)) ∈ weightVars l nargs D tagI := List.mem_append_right _ (by simp)
  have hul : (((nargs + 1 : Nat) : Int), 1 + D, (tagI : Int)) ∈ weightVars l nargs D tagI :=
    List.mem_append_right _ (by simp)
  constructor
  · rw [readEnv_at hpl hηl, if_pos hk]
    simp [gradArgs]
  · rw [readEnv_at hpl hul, if_pos hk]
    have h1 : ((((nargs + 1 : Nat) : Int)).toNat) = nargs + 1 := Int.toNat_natCast _
    simp only [h1, gradArgs]
    rw [if_neg (by omega), if_neg (by omega)]

/-- The entries of a log-sum-exp. -/
theorem post_lse {long : XR → XR} {D : Nat} {row : Mem XR} {arr : Arr XR}
    (h : postprocess (xrPost long) .logSumExp 0 (1 + D) row = some [arr]) {k : Nat} (hk : k < D) :
    arr.get k = XR.add (row 0) (XR.log (row (1 + k))) := by
  unfold postprocess at h
  simp only at h
  split at h
  · have h0 : k = 0 := by omega
    subst h0
    cases h
    rfl
  · cases h
    rfl

/-- **C63**, log-sum-exp with weights (without weights, `w` is the constant 1).  `res` is the memory written by the
forward kernel; `G` is the gradient of the loss with respect to the log-sum-exp, and `E` the gradient that PyTorch
computes from it, through `L = M + log S`, with respect to the components `S` of this memory.

Missing: batch dimensions (see `C63_logsumexp_batch_partial`); Kahan summation; the restrictions of C04 on the formulas. -/
theorem C63_logsumexp_partial (h : BackWeight tf tw f w v tagI m n nargs args)
    (hr : RedGrads (.maxSumShiftExp f w tagI) v (etaVar nargs (1 + w.dim) tagI) (resVar nargs (1 + w.dim) tagI)
      (.sum r axis))
    (hpos : ∀ i < outRows tagI m n, ∀ k < w.dim, 0 < ∑ j ∈ range (redRows tagI m n),
      Real.exp (f.val (readEnv (Term.bin .concat tf tw).vars args (pairAt tagI i j)) 0) *
        w.val (readEnv (Term.bin .concat tf tw).vars args (pairAt tagI i j)) k)
    (big : ℝ → XR) (long : XR → XR) (sch schb : SumScheme) (hsch : sch ≠ .kahan) :
    ∃ S Sb, getScheme (@lseRed XR (xrNum big) w.dim) sch = some S ∧ getScheme (sumRed (V := ℝ) r.dim) schb = some Sb ∧
      r.dim = v.dim ∧
      ∀ M : CMath, M.Exact → ∀ junk o res,
        Exec (@lseRed XR (xrNum big) w.dim) S ((Expr.bin .concat f w).call XR.fin XR.val M junk tagI m n
          fun p q => XR.fin (args p q)) o res →
        ∀ G E : Nat → ℝ, (∀ i < outRows tagI m n, ∀ k < w.dim,
          E (i * (1 + w.dim) + (1 + k)) = G (i * w.dim + k) / (res (i * (1 + w.dim) + (1 + k))).val) →
        ∀ o' g,
        Exec (sumRed r.dim) Sb (r.call id id M junk axis m n (gradArgs nargs args E fun q => (res q).val)) o' g →
        ∃ a, (∀ sigs shapes gradOf, sigs[v.ind.toNat]? = some v →
            shapes[v.ind.toNat]? = some (tailShape v.cat (rowsOf v m n) v.dim) →
            gradOf v = asArr (rowsOf v m n) v.dim g →
            (backward sigs shapes gradOf)[v.ind.toNat]? = some (some a)) ∧
          a.shape = tailShape v.cat (rowsOf v m n) v.dim ∧
          ∀ (δ : Nat → ℝ) (out₀ out : ℝ → Mem XR) (L : ℝ → Nat → Nat → ℝ),
            (∀ τ, Exec (@lseRed XR (xrNum big) w.dim) S ((Expr.bin .concat f w).call XR.fin XR.val M junk tagI m n
              fun p q => XR.fin (moved args v.ind.toNat δ τ p q)) (out₀ τ) (out τ)) →
            (∀ τ, ∀ i < outRows tagI m n, ∃ arr,
              postprocess (xrPost long) .logSumExp 0 (1 + w.dim) ((out τ).shift (i * (1 + w.dim))) = some [arr] ∧
              ∀ k < w.dim, L τ i k = (arr.get k).val) →
            HasDerivAt (fun τ => ∑ i ∈ range (outRows tagI m n), ∑ k ∈ range w.dim, G (i * w.dim + k) * L τ i k)
              (sumIdx a.shape fun idx => a.get idx * δ (ravel a.shape idx)) 0 := by
  obtain ⟨pf, pw⟩ := h.parts
  set l := (Term.bin .concat tf tw).vars with hldef
  have hl : PlainVars l := ⟨h.inputs.pos, h.inputs.cat, h.inputs.unique⟩
  have hvd : 0 < v.dim := by
    rcases List.mem_append.mp h.var with h1 | h1
    · exact term_vars_pos h.pos.1 _ h1
    · exact term_vars_pos h.pos.2 _ h1
  have hcat := hl.cat _ h.var
  have hvn := h.count _ h.var
  have hv0 := hl.pos _ h.var
  simp only at hcat hvn hv0
  have hq : v.ind.toNat < nargs := by omega
  have ht : tagI = 0 ∨ tagI = 1 := by have := h.tag; omega
  have hne : 0 < redRows tagI m n := by
    have := h.rows
    unfold redRows
    split <;> omega
  obtain ⟨S, B, Gd, hS, hL⟩ := lse_scheme big w.dim hsch
  have hrun := fun E res => weight_run hl h.count h.var hvd h.tag h.rows.1 h.rows.2 pf pw h.dim E res hr schb
  obtain ⟨hrd, Sb, hSb, -⟩ := hrun (fun _ => 0) fun _ => 0
  refine ⟨S, Sb, hS, hSb, hrd, fun M hM junk o res hres G E hE o' g hg => ?_⟩
  obtain ⟨-, Sb', hSb', hback⟩ := hrun E fun q => (res q).val
  rw [hSb] at hSb'
  cases hSb'
  obtain ⟨a, ha, hsh, hadj⟩ := hback M hM junk o' g hg
  refine ⟨a, ha, hsh, fun δ out₀ out L hex hpost => ?_⟩
  rw [hadj]
  set l' := weightVars l nargs w.dim tagI with hl'
  have hpl : PlainVars l' := hl.weight h.count w.dim h.tag
  set argsG := gradArgs nargs args E fun q => (res q).val with hargsG
  set base := readEnv l' argsG with hbase
  have hvl : (v.ind, v.dim, v.cat) ∈ l' := List.mem_append_left _ h.var
  have hself : ∀ p, base p = point base v (fun r k => argsG v.ind.toNat (r * v.dim + k)) p :=
    readEnv_point hpl hvl (args := argsG) (args' := argsG) fun _ _ => rfl
  have hagree : ∀ A p, ∀ u ∈ l, readEnv l' (gradArgs nargs A E fun q => (res q).val) p u.1 = readEnv l A p u.1 :=
    fun A p u hu => readEnv_gradArgs hpl h.count p hu
  have hmv : ∀ δ τ p, point base v (line (fun r k => argsG v.ind.toNat (r * v.dim + k)) (fun r k => δ (r * v.dim + k)) τ) p
      = readEnv l' (gradArgs nargs (moved args v.ind.toNat δ τ) E fun q => (res q).val) p :=
    fun δ τ p => (readEnv_moved hpl hvl hq δ τ p).symm
  have hraw := fun i (hi : i < outRows tagI m n) => lse_raw hl pf.wf pw.wf h.dim pf.ff pw.ff pf.vars pw.vars h.tag hne
    (fun i hi j hj => (pf.smooth i hi j hj).def) (fun i hi j hj => (pw.smooth i hi j hj).def) hL hM hres hi
  choose! c hc hck using hraw
  have hSpos : ∀ a < outRows tagI m n, ∀ k < w.dim, 0 < (res (a * (1 + w.dim) + (1 + k))).val := fun a ha k hk => by
    have h1 := hpos a ha k hk
    rw [sum_unshift _ (fun j => f.val (readEnv l args (pairAt tagI a j)) 0)
      (fun j => w.val (readEnv l args (pairAt tagI a j)) k) (c a)] at h1
    rw [hck a ha k hk]
    exact (mul_pos_iff_of_pos_left (Real.exp_pos _)).mp h1
  obtain ⟨r', axis', h1, -, hder⟩ := C44_logsumexp_partial (m := m) (n := n) (u := (nargs + 1 : Nat)) (η := nargs) ht hvd
    hcat h.rows.1 h.rows.2 pf.wf pw.wf h.dim pf.ff pw.ff pf.plain pw.plain pf.uses pw.uses (by push_cast; omega)
    (by omega) hr base (fun r k => argsG v.ind.toNat (r * v.dim + k)) (fun r k => δ (r * v.dim + k))
    (fun i hi j hj => by
      rw [← hself]
      exact smooth_agree pf.ff (fun u hu => hagree _ _ u (pf.vars u hu)) (pf.smooth i hi j hj))
    (fun i hi j hj => by
      rw [← hself]
      exact smooth_agree pw.ff (fun u hu => hagree _ _ u (pw.vars u hu)) (pw.smooth i hi j hj))
    c (fun i hi j hj k hk => by
      obtain rfl : k = 0 := by omega
      rw [hbase, (weight_rows hpl E _ i j (by omega)).2, Nat.add_zero, hc _ (rowAt_lt ht hi hj)]
      rfl)
    (fun a k => (res (a * (1 + w.dim) + (1 + k))).val) (fun a ha k hk => by
      rw [hck a ha k hk]
      refine sum_congr rfl fun s _ => ?_
      rw [← hself, hbase, Expr.val_agree pf.ff (fun u hu => hagree args _ u (pf.vars u hu)),
        Expr.val_agree pw.ff (fun u hu => hagree args _ u (pw.vars u hu))]) hSpos
    (fun a k => G (a * w.dim + k)) (fun i hi j hj k hk => by
      rw [hbase, (weight_rows hpl E _ i j (by omega)).1, hE _ (rowAt_lt ht hi hj) k hk])
  cases h1
  rw [← (funext hself : base = _)] at hder
  refine hder.congr_of_eventuallyEq ?_
  have hcont : ∀ i < outRows tagI m n, ∀ k < w.dim, ContinuousAt (fun τ => ∑ s ∈ range (redRows tagI m n),
      Real.exp (f.val (readEnv l (moved args v.ind.toNat δ τ) (pairAt tagI i s)) 0) *
        w.val (readEnv l (moved args v.ind.toNat δ τ) (pairAt tagI i s)) k) 0 := fun i hi k hk =>
    tendsto_finset_sum _ fun s hs => by
      obtain ⟨h2, h3⟩ := pairAt_lt hi (mem_range.mp hs)
      have c1 := moved_cont pf.wf pf.ff (pairAt tagI i s) v.ind.toNat δ (pf.smooth _ h2 _ h3) (k := 0) (by have := h.dim; omega)
      have c2 := moved_cont pw.wf pw.ff (pairAt tagI i s) v.ind.toNat δ (pw.smooth _ h2 _ h3) hk
      exact (c1.rexp).mul c2
  have hnear : ∀ᶠ τ in 𝓝 (0 : ℝ), ∀ i ∈ range (outRows tagI m n), ∀ k ∈ range w.dim,
      0 < ∑ s ∈ range (redRows tagI m n),
      Real.exp (f.val (readEnv l (moved args v.ind.toNat δ τ) (pairAt tagI i s)) 0) *
        w.val (readEnv l (moved args v.ind.toNat δ τ) (pairAt tagI i s)) k :=
    (eventually_all_finset _).mpr fun i hi => (eventually_all_finset _).mpr fun k hk => by
      have h0 : moved args v.ind.toNat δ 0 = args := by funext a k; simp [moved]
      refine (hcont i (mem_range.mp hi) k (mem_range.mp hk)).eventually_const_lt ?_
      beta_reduce
      rw [h0]
      exact hpos i (mem_range.mp hi) k (mem_range.mp hk)
  filter_upwards [hnear, pf.near v.ind.toNat δ, pw.near v.ind.toNat δ] with τ hτ df dw
  unfold dotRows
  refine sum_congr rfl fun i hi => sum_congr rfl fun k hk => ?_
  congr 1
  obtain ⟨c', h2, h3⟩ := lse_raw hl pf.wf pw.wf h.dim pf.ff pw.ff pf.vars pw.vars h.tag hne df dw hL hM (hex τ)
    (mem_range.mp hi)
  obtain ⟨arr, h4, h5⟩ := hpost τ i (mem_range.mp hi)
  have hk' := mem_range.mp hk
  rw [h5 k hk', post_lse h4 hk']
  simp only [Mem.shift_apply, Nat.add_zero]
  rw [h2, h3 k hk', log_unshift, ← sum_unshift _ (fun j => f.val (readEnv l (moved args v.ind.toNat δ τ) (pairAt tagI i j)) 0)
      (fun j => w.val (readEnv l (moved args v.ind.toNat δ τ) (pairAt tagI i j)) k)]
  simp only [XR.log, hτ i hi k hk, if_true, XR.val, lseRow]
  congr 1
  refine sum_congr rfl fun s _ => ?_
  rw [hmv, Expr.val_agree pf.ff (fun u hu => hagree _ _ u (pf.vars u hu)),
    Expr.val_agree pw.ff (fun u hu => hagree _ _ u (pw.vars u hu))]

/-- The weights of a softmax. -/
theorem Part.one {l : List (Int × Nat × Int)} (h : Part l v m n args w) :
    Part l v m n args (.bin .concat (.int 1) w) where
  wf := ⟨by simp [Expr.WF], h.wf, rfl, by show 0 < 1 + w.dim; omega⟩
  ff := ⟨trivial, h.ff⟩
  vars t ht := h.vars t ht
  plain := ⟨trivial, h.plain⟩
  uses := ⟨trivial, h.uses⟩
  smooth i hi j hj := ⟨trivial, h.smooth i hi j hj, trivial⟩

/-- **C63**, softmax-weighted sums.  `res` is the memory `(M, S₀, S)` written by the forward kernel; `G` is the gradient of
the loss with respect to the softmax-weighted sums, and `E` the gradient that PyTorch computes from it, through `S / S₀`,
with respect to the components `S₀` and `S` of this memory.

Missing: batch dimensions (see `C63_softmax_batch_partial`); Kahan summation; the restrictions of C04 on the formulas. -/
theorem C63_softmax_partial (h : BackWeight tf tw f w v tagI m n nargs args)
    (hr : RedGrads (.maxSumShiftExp f (.bin .concat (.int 1) w) tagI) v (etaVar nargs (2 + w.dim) tagI)
      (resVar nargs (2 + w.dim) tagI) (.sum r axis))
    (big : ℝ → XR) (long : XR → XR) (sch schb : SumScheme) (hsch : sch ≠ .kahan) :
    ∃ S Sb, getScheme (@lseRed XR (xrNum big) (1 + w.dim)) sch = some S ∧
      getScheme (sumRed (V := ℝ) r.dim) schb = some Sb ∧ r.dim = v.dim ∧
      ∀ M : CMath, M.Exact → ∀ junk o res,
        Exec (@lseRed XR (xrNum big) (1 + w.dim)) S ((Expr.bin .concat f (.bin .concat (.int 1) w)).call XR.fin XR.val M
          junk tagI m n fun p q => XR.fin (args p q)) o res →
        ∀ G E : Nat → ℝ, (∀ i < outRows tagI m n,
          E (i * (2 + w.dim) + 1) = -(∑ k ∈ range w.dim, G (i * w.dim + k) * (res (i * (2 + w.dim) + (2 + k))).val) /
            (res (i * (2 + w.dim) + 1)).val ^ 2 ∧
          ∀ k < w.dim, E (i * (2 + w.dim) + (2 + k)) = G (i * w.dim + k) / (res (i * (2 + w.dim) + 1)).val) →
        ∀ o' g,
        Exec (sumRed r.dim) Sb (r.call id id M junk axis m n (gradArgs nargs args E fun q => (res q).val)) o' g →
        ∃ a, (∀ sigs shapes gradOf, sigs[v.ind.toNat]? = some v →
            shapes[v.ind.toNat]? = some (tailShape v.cat (rowsOf v m n) v.dim) →
            gradOf v = asArr (rowsOf v m n) v.dim g →
            (backward sigs shapes gradOf)[v.ind.toNat]? = some (some a)) ∧
          a.shape = tailShape v.cat (rowsOf v m n) v.dim ∧
          ∀ (δ : Nat → ℝ) (out₀ out : ℝ → Mem XR) (L : ℝ → Nat → Nat → ℝ),
            (∀ τ, Exec (@lseRed XR (xrNum big) (1 + w.dim)) S ((Expr.bin .concat f (.bin .concat (.int 1) w)).call XR.fin
              XR.val M junk tagI m n fun p q => XR.fin (moved args v.ind.toNat δ τ p q)) (out₀ τ) (out τ)) →
            (∀ τ, ∀ i < outRows tagI m n, ∃ arr,
              postprocess (xrPost long) .sumSoftMaxWeight 0 (2 + w.dim) ((out τ).shift (i * (2 + w.dim))) = some [arr] ∧
              ∀ k < w.dim, L τ i k = (arr.get k).val) →
            HasDerivAt (fun τ => ∑ i ∈ range (outRows tagI m n), ∑ k ∈ range w.dim, G (i * w.dim + k) * L τ i k)
              (sumIdx a.shape fun idx => a.get idx * δ (ravel a.shape idx)) 0 := by
  obtain ⟨pf, pw⟩ := h.parts
  have p1 := pw.one
  have hod : (Expr.bin .concat (.int 1) w).dim = 1 + w.dim := rfl
  have h2d : 2 + w.dim = 1 + (1 + w.dim) := by omega
  have hr' := hr
  rw [h2d] at hr ⊢
  set l := (Term.bin .concat tf tw).vars with hldef
  have hl : PlainVars l := ⟨h.inputs.pos, h.inputs.cat, h.inputs.unique⟩
  have hvd : 0 < v.dim := by
    rcases List.mem_append.mp h.var with h1 | h1
    · exact term_vars_pos h.pos.1 _ h1
    · exact term_vars_pos h.pos.2 _ h1
  have hcat := hl.cat _ h.var
  have hvn := h.count _ h.var
  have hv0 := hl.pos _ h.var
  simp only at hcat hvn hv0
  have hq : v.ind.toNat < nargs := by omega
  have ht : tagI = 0 ∨ tagI = 1 := by have := h.tag; omega
  have hne : 0 < redRows tagI m n := by
    have := h.rows
    unfold redRows
    split <;> omega
  obtain ⟨S, B, Gd, hS, hL⟩ := lse_scheme big (1 + w.dim) hsch
  have hrun := fun E res => weight_run hl h.count h.var hvd h.tag h.rows.1 h.rows.2 pf p1 h.dim E res hr schb
  obtain ⟨hrd, Sb, hSb, -⟩ := hrun (fun _ => 0) fun _ => 0
  refine ⟨S, Sb, hS, hSb, hrd, fun M hM junk o res hres G E hE o' g hg => ?_⟩
  obtain ⟨-, Sb', hSb', hback⟩ := hrun E fun q => (res q).val
  rw [hSb] at hSb'
  cases hSb'
  obtain ⟨a, ha, hsh, hadj⟩ := hback M hM junk o' g hg
  refine ⟨a, ha, hsh, fun δ out₀ out L hex hpost => ?_⟩
  rw [hadj]
  rw [hod]
  set l' := weightVars l nargs (1 + w.dim) tagI with hl'
  have hpl : PlainVars l' := hl.weight h.count (1 + w.dim) h.tag
  set argsG := gradArgs nargs args E fun q => (res q).val with hargsG
  set base := readEnv l' argsG with hbase
  have hvl : (v.ind, v.dim, v.cat) ∈ l' := List.mem_append_left _ h.var
  have hself : ∀ p, base p = point base v (fun r k => argsG v.ind.toNat (r * v.dim + k)) p :=
    readEnv_point hpl hvl (args := argsG) (args' := argsG) fun _ _ => rfl
  have hagree : ∀ A p, ∀ u ∈ l, readEnv l' (gradArgs nargs A E fun q => (res q).val) p u.1 = readEnv l A p u.1 :=
    fun A p u hu => readEnv_gradArgs hpl h.count p hu
  have hmv : ∀ δ τ p, point base v (line (fun r k => argsG v.ind.toNat (r * v.dim + k)) (fun r k => δ (r * v.dim + k)) τ) p
      = readEnv l' (gradArgs nargs (moved args v.ind.toNat δ τ) E fun q => (res q).val) p :=
    fun δ τ p => (readEnv_moved hpl hvl hq δ τ p).symm
  have hone : ∀ env, (Expr.bin .concat (.int 1) w).val env 0 = 1 := fun env => by
    simp [Expr.val, binVal, cst, Expr.dim]
  have hwk : ∀ env, ∀ k < w.dim, (Expr.bin .concat (.int 1) w).val env (1 + k) = w.val env k := fun env k hk => by
    simp only [Expr.val, binVal, Expr.dim]
    rw [cst_eq (by omega)]
    simp
  have raw : ∀ (A : Nat → Nat → ℝ), (∀ i < m, ∀ j < n, f.Def (readEnv l A (i, j))) →
      (∀ i < m, ∀ j < n, w.Def (readEnv l A (i, j))) → ∀ o res,
      Exec (@lseRed XR (xrNum big) (1 + w.dim)) S ((Expr.bin .concat f (.bin .concat (.int 1) w)).call XR.fin XR.val M
          junk tagI m n fun p q => XR.fin (A p q)) o res →
      ∀ i < outRows tagI m n, ∃ c : ℝ, res (i * (1 + (1 + w.dim))) = XR.fin c ∧
        res (i * (1 + (1 + w.dim)) + 1) = XR.fin (∑ s ∈ range (redRows tagI m n),
          Real.exp (f.val (readEnv l A (pairAt tagI i s)) 0 - c)) ∧
        ∀ k < w.dim, res (i * (1 + (1 + w.dim)) + (2 + k)) = XR.fin (∑ s ∈ range (redRows tagI m n),
          Real.exp (f.val (readEnv l A (pairAt tagI i s)) 0 - c) * w.val (readEnv l A (pairAt tagI i s)) k) := by
    intro A df dw o res he i hi
    obtain ⟨c, h1, h2⟩ := lse_raw hl pf.wf p1.wf h.dim pf.ff p1.ff pf.vars p1.vars h.tag hne df
      (fun i hi j hj => ⟨trivial, dw i hi j hj, trivial⟩) hL hM he hi
    refine ⟨c, h1, ?_, fun k hk => ?_⟩
    · have := h2 0 (by show 0 < 1 + w.dim; omega)
      simp only [hone, mul_one, Nat.add_zero] at this
      exact this
    · have := h2 (1 + k) (by show 1 + k < 1 + w.dim; omega)
      rw [← Nat.add_assoc 1 1 k] at this
      refine this.trans ?_
      congr 1
      exact sum_congr rfl fun s _ => by rw [hwk _ k hk]
  have hraw := raw args (fun i hi j hj => (pf.smooth i hi j hj).def) (fun i hi j hj => (pw.smooth i hi j hj).def) o res hres
  choose! c hc hc0 hck using hraw
  have hr2 : RedGrads (.maxSumShiftExp f (.bin .concat (.int 1) w) tagI) v (.var nargs (2 + w.dim) tagI)
      (.var (nargs + 1 : Nat) (2 + w.dim) tagI) (.sum r axis) := hr'
  obtain ⟨r', axis', h1, -, hder⟩ := C44_softmax_partial (m := m) (n := n) (u := (nargs + 1 : Nat)) (η := nargs) ht hvd
    hcat h.rows.1 h.rows.2 pf.wf pw.wf h.dim pf.ff pw.ff pf.plain pw.plain pf.uses pw.uses (by push_cast; omega)
    (by omega) hr2 base (fun r k => argsG v.ind.toNat (r * v.dim + k)) (fun r k => δ (r * v.dim + k))
    (fun i hi j hj => by
      rw [← hself]
      exact smooth_agree pf.ff (fun u hu => hagree _ _ u (pf.vars u hu)) (pf.smooth i hi j hj))
    (fun i hi j hj => by
      rw [← hself]
      exact smooth_agree pw.ff (fun u hu => hagree _ _ u (pw.vars u hu)) (pw.smooth i hi j hj))
    c (fun i hi j hj k hk => by
      obtain rfl : k = 0 := by omega
      rw [hbase, (weight_rows hpl E _ i j (by omega)).2, Nat.add_zero, hc _ (rowAt_lt ht hi hj)]
      rfl)
    (fun a => (res (a * (1 + (1 + w.dim)) + 1)).val) (fun a k => (res (a * (1 + (1 + w.dim)) + (2 + k))).val)
    (fun a ha => by
      rw [hc0 a ha]
      refine sum_congr rfl fun s _ => ?_
      rw [← hself, hbase, Expr.val_agree pf.ff (fun u hu => hagree args _ u (pf.vars u hu))])
    (fun a ha k hk => by
      rw [hck a ha k hk]
      refine sum_congr rfl fun s _ => ?_
      rw [← hself, hbase, Expr.val_agree pf.ff (fun u hu => hagree args _ u (pf.vars u hu)),
        Expr.val_agree pw.ff (fun u hu => hagree args _ u (pw.vars u hu))])
    (fun a k => G (a * w.dim + k))
    (fun i hi j hj k hk => by
      obtain rfl : k = 0 := by omega
      rw [hbase, (weight_rows hpl E _ i j (by omega)).1]
      exact (hE _ (rowAt_lt ht hi hj)).1)
    (fun i hi j hj k hk => by
      rw [hbase, (weight_rows hpl E _ i j (by omega)).1]
      exact (hE _ (rowAt_lt ht hi hj)).2 k hk)
  cases h1
  rw [← (funext hself : base = _)] at hder
  refine hder.congr_of_eventuallyEq ?_
  filter_upwards [pf.near v.ind.toNat δ, pw.near v.ind.toNat δ] with τ df dw
  unfold dotRows
  refine sum_congr rfl fun i hi => sum_congr rfl fun k hk => ?_
  congr 1
  obtain ⟨c', h2, h20, h3⟩ := raw _ df dw _ _ (hex τ) i (mem_range.mp hi)
  obtain ⟨arr, h4, h5⟩ := hpost τ i (mem_range.mp hi)
  have hk' := mem_range.mp hk
  rw [h5 k hk']
  cases h4
  have hden : 0 < ∑ s ∈ range (redRows tagI m n),
      Real.exp (f.val (readEnv l (moved args v.ind.toNat δ τ) (pairAt tagI i s)) 0 - c') :=
    Finset.sum_pos (fun _ _ => Real.exp_pos _) ⟨0, mem_range.mpr hne⟩
  simp only [Mem.shift_apply]
  change XR.val (XR.div (out τ (i * (1 + (1 + w.dim)) + (2 + k))) (out τ (i * (1 + (1 + w.dim)) + 1))) = _
  rw [h20, h3 k hk']
  simp only [XR.div, hden.ne', if_false, XR.val, softRow]
  have e1 := sum_unshift (redRows tagI m n) (fun j => f.val (readEnv l (moved args v.ind.toNat δ τ) (pairAt tagI i j)) 0)
      (fun j => w.val (readEnv l (moved args v.ind.toNat δ τ) (pairAt tagI i j)) k) c'
  have e2 := sum_unshift (redRows tagI m n) (fun j => f.val (readEnv l (moved args v.ind.toNat δ τ) (pairAt tagI i j)) 0)
      (fun _ => 1) c'
  simp only [mul_one] at e2
  rw [← mul_div_mul_left _ _ (Real.exp_pos c').ne', ← e1, ← e2]
  congr 1
  · refine sum_congr rfl fun s _ => ?_
    rw [hmv, Expr.val_agree pf.ff (fun u hu => hagree _ _ u (pf.vars u hu)),
      Expr.val_agree pw.ff (fun u hu => hagree _ _ u (pw.vars u hu))]
  · refine sum_congr rfl fun s _ => ?_
    rw [hmv, Expr.val_agree pf.ff (fun u hu => hagree _ _ u (pf.vars u hu))]

end

/-- The scores `-|x_i - y_j|²`. -/
abbrev backScore : Term := .un .minus (.sqDist (.var 0 3 0) (.var 1 3 1))

abbrev backScoreE : Expr := .un .minus (.un .sum (.un .square (.bin .sub (.var 0 3 0) (.var 1 3 1))))

/-- The weights `b_j`. -/
abbrev backB : Term := .var 2 2 1

theorem score_back (v : VarId) (hv : (v.ind, v.dim, v.cat) ∈ (Term.bin .concat backScore backB).vars) (m n : Nat)
    (hm : 0 < m) (hn : 0 < n) (args : Nat → Nat → ℝ) :
    BackWeight backScore backB backScoreE (.var 2 2 1) v 0 m n 3 args where
  pos := by simp [Term.Pos, Un.dim]
  inputs := ⟨by decide, by decide, by decide⟩
  score := ⟨20, rfl⟩
  weight := ⟨20, rfl⟩
  dim := rfl
  tag := by omega
  rows := ⟨hm, hn⟩
  var := hv
  count := by decide
  plain := by simp [Expr.NoBroadcast]
  smooth i _ j _ := by simp [Expr.Smooth, binSmooth, unSmooth, Expr.dim, Un.dim, Bin.dim]

/-- The gradients of log-sum-exps and of softmax-weighted sums with respect to the points `x`, `y` and the weights `b` can
be computed. -/
example : (∃ r, RedGrads (.maxSumShiftExp backScoreE (.var 2 2 1) 0) ⟨0, 3, 0⟩ (etaVar 3 3 0) (resVar 3 3 0) (.sum r 0)) ∧
    (∃ r, RedGrads (.maxSumShiftExp backScoreE (.var 2 2 1) 0) ⟨1, 3, 1⟩ (etaVar 3 3 0) (resVar 3 3 0) (.sum r 1)) ∧
    (∃ r, RedGrads (.maxSumShiftExp backScoreE (.var 2 2 1) 0) ⟨2, 2, 1⟩ (etaVar 3 3 0) (resVar 3 3 0) (.sum r 1)) ∧
    (∃ r, RedGrads (.maxSumShiftExp backScoreE (.bin .concat (.int 1) (.var 2 2 1)) 0) ⟨0, 3, 0⟩ (etaVar 3 4 0)
      (resVar 3 4 0) (.sum r 0)) ∧
    (∃ r, RedGrads (.maxSumShiftExp backScoreE (.bin .concat (.int 1) (.var 2 2 1)) 0) ⟨1, 3, 1⟩ (etaVar 3 4 0)
      (resVar 3 4 0) (.sum r 1)) ∧
    ∃ r, RedGrads (.maxSumShiftExp backScoreE (.bin .concat (.int 1) (.var 2 2 1)) 0) ⟨2, 2, 1⟩ (etaVar 3 4 0)
      (resVar 3 4 0) (.sum r 1) := by
  refine ⟨⟨_, 20, rfl⟩, ⟨_, 20, rfl⟩, ⟨_, 20, rfl⟩, ⟨_, 20, rfl⟩, ⟨_, 20, rfl⟩, ⟨_, 20, rfl⟩⟩

/-- The sums are positive when the weights are. -/
example (m n : Nat) (hn : 0 < n) (args : Nat → Nat → ℝ) (hb : ∀ q < n * 2, 0 < args 2 q) :
    ∀ i < outRows 0 m n, ∀ k < 2, 0 < ∑ j ∈ range (redRows 0 m n),
      Real.exp (backScoreE.val (readEnv (Term.bin .concat backScore backB).vars args (pairAt 0 i j)) 0) *
        (Expr.var 2 2 1).val (readEnv (Term.bin .concat backScore backB).vars args (pairAt 0 i j)) k := by
  intro i _ k hk
  refine Finset.sum_pos (fun j hj => mul_pos (Real.exp_pos _) ?_) ⟨0, mem_range.mpr hn⟩
  have hj' : j < n := mem_range.mp hj
  have : (Expr.var 2 2 1).val (readEnv (Term.bin .concat backScore backB).vars args (pairAt 0 i j)) k =
      args 2 (j * 2 + k) := by
    simp only [Expr.val]
    rw [cst_eq hk]
    simp [readEnv, Term.vars, pairAt, rowAt, show k ≤ 1 by omega]
  rw [this]
  exact hb _ (by omega)

/-- The gradient of softmax-weighted sums with respect to the points `x`, for any number of points: the forward and
backward kernels run, and the array that is returned is the derivative of the loss. -/
example (m n : Nat) (hm : 0 < m) (hn : 0 < n) (args : Nat → Nat → ℝ) (big : ℝ → XR) (long : XR → XR) (G : Nat → ℝ) :
    ∃ (r : Expr) (S : Scheme XR) (Sb : Scheme ℝ) (res : Mem XR) (E : Nat → ℝ) (g : Mem ℝ) (a : Spec.Arr ℝ),
      Exec (@lseRed XR (xrNum big) 3) S ((Expr.bin .concat backScoreE (.bin .concat (.int 1) (.var 2 2 1))).call XR.fin
        XR.val realMath (fun _ _ => 0) 0 m n fun p q => XR.fin (args p q)) (fun _ => XR.fin 0) res ∧
      Exec (sumRed 3) Sb (r.call id id realMath (fun _ _ => 0) 0 m n (gradArgs 3 args E fun q => (res q).val)) (fun _ => 0) g ∧
      (backward [⟨0, 3, 0⟩, ⟨1, 3, 1⟩, ⟨2, 2, 1⟩] [[m, 3], [n, 3], [n, 2]] fun _ => asArr m 3 g)[0]? = some (some a) ∧
      a.shape = [m, 3] ∧
      ∀ (δ : Nat → ℝ) (out₀ out : ℝ → Mem XR) (L : ℝ → Nat → Nat → ℝ),
        (∀ τ, Exec (@lseRed XR (xrNum big) 3) S ((Expr.bin .concat backScoreE (.bin .concat (.int 1) (.var 2 2 1))).call
          XR.fin XR.val realMath (fun _ _ => 0) 0 m n fun p q => XR.fin (moved args 0 δ τ p q)) (out₀ τ) (out τ)) →
        (∀ τ, ∀ i < m, ∃ arr, postprocess (xrPost long) .sumSoftMaxWeight 0 4 ((out τ).shift (i * 4)) = some [arr] ∧
          ∀ k < 2, L τ i k = (arr.get k).val) →
        HasDerivAt (fun τ => ∑ i ∈ range m, ∑ k ∈ range 2, G (i * 2 + k) * L τ i k)
          (sumIdx [m, 3] fun idx => a.get idx * δ (ravel [m, 3] idx)) 0 := by
  have hr : ∃ r, RedGrads (.maxSumShiftExp backScoreE (.bin .concat (.int 1) (.var 2 2 1)) 0) ⟨0, 3, 0⟩
      (etaVar 3 (2 + (Expr.var 2 2 1).dim) 0) (resVar 3 (2 + (Expr.var 2 2 1).dim) 0) (.sum r 0) := ⟨_, 20, rfl⟩
  obtain ⟨r, hr⟩ := hr
  obtain ⟨S, Sb, hS, hSb, hd, h⟩ := C63_softmax_partial (score_back ⟨0, 3, 0⟩ (by decide) m n hm hn args) hr big long
    .direct .direct (by decide)
  simp only at hd
  rw [hd] at hSb h
  obtain ⟨res, hres⟩ := exec_exists_cpu (@lseRed XR (xrNum big) 3) S
    ((Expr.bin .concat backScoreE (.bin .concat (.int 1) (.var 2 2 1))).call XR.fin XR.val realMath (fun _ _ => 0) 0 m n
      fun p q => XR.fin (args p q)) (fun _ => XR.fin 0)
  let E : Nat → ℝ := fun q => if q % 4 = 1 then
      -(∑ k ∈ range 2, G (q / 4 * 2 + k) * (res (q / 4 * 4 + (2 + k))).val) / (res (q / 4 * 4 + 1)).val ^ 2
    else G (q / 4 * 2 + (q % 4 - 2)) / (res (q / 4 * 4 + 1)).val
  obtain ⟨g, hg⟩ := exec_exists_cpu (sumRed 3) Sb
    (r.call id id realMath (fun _ _ => 0) 0 m n (gradArgs 3 args E fun q => (res q).val)) (fun _ => 0)
  obtain ⟨a, h1, h2, h3⟩ := h realMath realMath_exact _ _ res hres G E (fun i _ => by
    constructor
    · have e1 : (i * 4 + 1) % 4 = 1 := by omega
      have e2 : (i * 4 + 1) / 4 = i := by omega
      show E (i * 4 + 1) = _
      simp only [E, e1, e2, if_true]
      rfl
    · intro k hk
      have hk' : k < 2 := hk
      have e1 : (i * 4 + (2 + k)) % 4 = 2 + k := by omega
      have e2 : (i * 4 + (2 + k)) / 4 = i := by omega
      have e3 : ¬ (2 + k = 1) := by omega
      show E (i * 4 + (2 + k)) = _
      simp only [E, e1, e2, e3, if_false, Nat.add_sub_cancel_left]
      rfl) _ g hg
  have h2' : a.shape = [m, 3] := h2
  refine ⟨r, S, Sb, res, E, g, a, hres, hg, h1 _ _ _ rfl rfl rfl, h2', fun δ out₀ out L hex hp => ?_⟩
  have := h3 δ out₀ out L hex hp
  rw [h2'] at this
  exact this

end Verif
