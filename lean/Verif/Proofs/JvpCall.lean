import Verif.Model.JvpCall
import Verif.Spec.JvpCall
import Verif.Props.BackwardLse

/-!
# Forward-mode derivatives of formulas, for several arguments
-/

namespace Verif

open Finset Spec Filter Topology

section Adjoint

variable {w : Mark} {v : VarId} {n : Nat} {e u r : Expr}

/-- What does not occur in the formula and the direction does not occur in the adjoint. -/
theorem adjoint_mark (he : e.deg w = 0) (hu : u.deg w = 0) (h : adjoint n v e u = .ok r) : r.deg w = 0 := by
  induction n generalizing e u r with
  | zero => cases h
  | succ n ih =>
    unfold adjoint at h
    by_cases hl : e.isLinear v = true
    swap
    · simp [hl] at h
    simp only [hl, Bool.not_true, Bool.false_eq_true, if_false] at h
    split at h
    · rename_i f g
      obtain ⟨f', b1, h⟩ := bind_ok h
      obtain ⟨a, a1, h⟩ := bind_ok h
      obtain ⟨g', b2, h⟩ := bind_ok h
      obtain ⟨b, a2, h⟩ := bind_ok h
      have c1 := (broadcast_deg (w := w) b1).1
      have c2 := (broadcast_deg (w := w) b2).1
      simp only [Expr.deg] at he
      have := ih (by omega) hu a1
      have := ih (by omega) hu a2
      have := (mkBin_deg (w := w) h).1
      simp only [Expr.deg] at this
      omega
    · rename_i f g
      obtain ⟨f', b1, h⟩ := bind_ok h
      obtain ⟨a, a1, h⟩ := bind_ok h
      obtain ⟨g', b2, h⟩ := bind_ok h
      obtain ⟨b, a2, h⟩ := bind_ok h
      have c1 := (broadcast_deg (w := w) b1).1
      have c2 := (broadcast_deg (w := w) b2).1
      simp only [Expr.deg] at he
      have := ih (by omega) hu a1
      have := ih (by omega) hu a2
      have := (mkBin_deg (w := w) h).1
      simp only [Expr.deg] at this
      omega
    · rename_i f
      obtain ⟨f', b1, h⟩ := bind_ok h
      obtain ⟨a, a1, h⟩ := bind_ok h
      have c1 := (broadcast_deg (w := w) b1).1
      simp only [Expr.deg, Un.linear, if_true] at he
      have := ih (by omega) hu a1
      have := (mkUn_deg (w := w) h).1
      simp only [Expr.deg, Un.linear, if_true] at this
      omega
    · rename_i f g
      obtain ⟨p, b1, h⟩ := bind_ok h
      obtain ⟨s, b2, h⟩ := bind_ok h
      have c1 := (build_le (w := w) b1).1
      have c2 := (mkUn_deg (w := w) b2).1
      simp only [Expr.deg, Req.deg, Un.linear, if_true] at he c1 c2
      exact ih (by omega) hu h
    · rename_i f g
      simp only [Expr.deg] at he
      split_ifs at h
      · obtain ⟨f', b1, h⟩ := bind_ok h
        obtain ⟨w', b2, h⟩ := bind_ok h
        have c1 := (broadcast_deg (w := w) b1).1
        have c2 := (build_le (w := w) b2).1
        simp only [Req.deg] at c2
        exact ih (by omega) (by omega) h
      · obtain ⟨f', b1, h⟩ := bind_ok h
        obtain ⟨w', b2, h⟩ := bind_ok h
        have c1 := (broadcast_deg (w := w) b1).1
        have c2 := (build_le (w := w) b2).1
        simp only [Req.deg] at c2
        exact ih (by omega) (by omega) h
    · rename_i f g
      simp only [Expr.deg] at he
      obtain ⟨f', b1, h⟩ := bind_ok h
      obtain ⟨w', b2, h⟩ := bind_ok h
      have c1 := (broadcast_deg (w := w) b1).1
      have c2 := (build_le (w := w) b2).1
      simp only [Req.deg] at c2
      exact ih (by omega) (by omega) h
    · cases h
      exact hu
    · obtain ⟨w', b1, h⟩ := bind_ok h
      have c1 := (build_le (w := w) b1).1
      simp only [Expr.deg, Req.deg, Un.linear, if_true] at he c1
      exact ih (by omega) (by omega) h
    · obtain ⟨w', b1, h⟩ := bind_ok h
      have c1 := (sumT_deg (w := w) b1).1
      simp only [Expr.deg, Un.linear, if_true] at he
      exact ih (by omega) (by omega) h
    · cases h; rfl
    all_goals first
      | (cases h; done)
      | (obtain ⟨w', b1, h⟩ := bind_ok h
         have c1 := (mkUn_deg (w := w) b1).1
         simp only [Expr.deg, Un.linear, if_true] at he c1
         exact ih (by omega) (by omega) h)

/-- `Diff` of formulas without `Factorize` has none, and its variables are those of the formula and of the direction. -/
theorem diffs_struct (hw : e.WF) (hf : e.FactFree) (hu : u.FactFree) (h : Diffs e v u r) :
    r.FactFree ∧ ∀ t ∈ r.vars, t ∈ e.vars ∨ t ∈ u.vars := by
  have htemp := C05_temp hw hf h
  obtain ⟨N, h⟩ := h
  unfold diff at h
  obtain ⟨d, h1, h⟩ := bind_ok h
  have hd := diffT_factFree (gradin := VarId.expr ⟨diffInd e v u, e.dim, -1⟩) hw hf trivial h1
  have hr : r.FactFree := Expr.deg_noFact.mp
    (adjoint_mark (Expr.deg_noFact.mpr hd) (Expr.deg_noFact.mpr hu) h)
  refine ⟨hr, fun t ht => ?_⟩
  by_contra hc
  rw [not_or] at hc
  have hti : t.1 ≠ diffInd e v u := fun heq => htemp (vars_inds' ht heq)
  have hdv : d.deg (.var t.1 t.2.1 t.2.2) = 0 := by
    by_contra hne
    rcases diffT_vars (gradin := VarId.expr ⟨diffInd e v u, e.dim, -1⟩) hw hf trivial h1
      ((Expr.deg_vars hd).mpr hne) with h2 | h2
    · exact hc.1 h2
    · rw [VarId.expr, Expr.vars, List.mem_singleton] at h2
      exact hti (by rw [show t.1 = (t.1, t.2.1, t.2.2).1 from rfl, h2])
  have huv : u.deg (.var t.1 t.2.1 t.2.2) = 0 := by
    by_contra hne
    exact hc.2 ((Expr.deg_vars hu).mpr hne)
  exact (Expr.deg_vars hr).mp ht (adjoint_mark hdv huv h)

end Adjoint

/-! ## All arguments move -/

/-- The derivative along all directions is the sum of the derivatives along each of them. -/
theorem joint_deriv {p : Expr} (hw : p.WF) (hf : p.FactFree) {l : List (Int × Nat × Int)} {args δ : Nat → Nat → ℝ}
    {N : Nat} (pt : Nat × Nat) (h0 : ∀ q k, N ≤ q → δ q k = 0) (hs : p.Smooth (readEnv l args pt)) {k : Nat}
    (hk : k < p.dim) (D : Nat → ℝ)
    (hD : ∀ q < N, HasDerivAt (fun τ => p.val (readEnv l (moved args q (δ q) τ) pt) k) (D q) 0) :
    HasDerivAt (fun τ => p.val (readEnv l (movedAll args δ τ) pt) k) (∑ q ∈ range N, D q) 0 := by
  let A : (Fin N → ℝ) → Nat → Nat → ℝ := fun s q k => args q k + (if h : q < N then s ⟨q, h⟩ else 0) * δ q k
  have hA0 : A 0 = args := by
    funext q k
    simp [A]
  have hdiff : ∀ i k, ∃ L : (Fin N → ℝ) →L[ℝ] ℝ, HasFDerivAt (fun s => readEnv l (A s) pt i k) L 0 := by
    intro i k
    have hd : DifferentiableAt ℝ (fun s => readEnv l (A s) pt i k) 0 := by
      unfold readEnv
      split
      · split
        · simp only [A]
          split
          · exact (differentiableAt_const _).add (((ContinuousLinearMap.proj (R := ℝ) (φ := fun _ : Fin N => ℝ)
              _).differentiableAt).mul_const _)
          · exact (differentiableAt_const _).add ((differentiableAt_const _).mul_const _)
        · exact differentiableAt_const _
      · exact differentiableAt_const _
    exact ⟨_, hd.hasFDerivAt⟩
  choose L hL using hdiff
  have hΦ := Expr.hasFDerivAt (x₀ := (0 : Fin N → ℝ)) (F := fun s => readEnv l (A s) pt) hw hf hL
    (by rw [hA0]; exact hs) (.inl hk)
  set Λ := p.tan (readEnv l (A 0) pt) L k with hΛ
  have hdir : ∀ d : Fin N → ℝ, HasDerivAt (fun τ : ℝ => p.val (readEnv l (A (τ • d)) pt) k) (Λ d) 0 := fun d => by
    have h1 : HasDerivAt (fun τ : ℝ => τ • d) d 0 := by simpa using (hasDerivAt_id (0 : ℝ)).smul_const d
    have h2 : HasFDerivAt (fun s => p.val (readEnv l (A s) pt) k) Λ ((0 : ℝ) • d) := by rw [zero_smul]; exact hΦ
    exact h2.comp_hasDerivAt (0 : ℝ) h1
  have hone : ∀ q : Fin N, Λ (Pi.single q 1) = D q := fun q => by
    refine (hdir (Pi.single q 1)).unique ((hD q q.2).congr_of_eventuallyEq (.of_forall fun τ => ?_))
    have : A (τ • Pi.single q 1) = moved args q (δ q) τ := by
      funext a b
      simp only [A, moved]
      by_cases ha : a = (q : Nat)
      · subst ha
        simp
      · rw [if_neg ha]
        split
        · rename_i h
          have : (⟨a, h⟩ : Fin N) ≠ q := fun e => ha (congrArg Fin.val e)
          simp [Pi.single_eq_of_ne this]
        · simp
    simp only [this]
  have hall : Λ (fun _ => 1) = ∑ q ∈ range N, D q := by
    have : (fun _ => 1 : Fin N → ℝ) = ∑ q, Pi.single q 1 := by
      rw [← Finset.univ_sum_single (fun _ => 1 : Fin N → ℝ)]
    rw [this, map_sum, ← Fin.sum_univ_eq_sum_range]
    exact sum_congr rfl fun q _ => hone q
  rw [← hall]
  refine (hdir _).congr_of_eventuallyEq (.of_forall fun τ => ?_)
  have : A (τ • fun _ => 1) = movedAll args δ τ := by
    funext a b
    simp only [A, movedAll]
    split
    · simp
    · rw [h0 a b (by omega)]
      simp
  simp only [this]

/-- Near the arrays where a formula is differentiable, it is defined. -/
theorem movedAll_near {e : Expr} (hw : e.WF) (hf : e.FactFree) {l : List (Int × Nat × Int)} {args δ : Nat → Nat → ℝ}
    (p : Nat × Nat) (hs : e.Smooth (readEnv l args p)) :
    ∀ᶠ τ in 𝓝 (0 : ℝ), e.Def (readEnv l (movedAll args δ τ) p) := by
  have h0 : movedAll args δ 0 = args := by funext a k; simp [movedAll]
  have : ∀ i k, ∃ L : ℝ →L[ℝ] ℝ, HasFDerivAt (fun τ => readEnv l (movedAll args δ τ) p i k) L 0 := by
    intro i k
    have hd : DifferentiableAt ℝ (fun τ => readEnv l (movedAll args δ τ) p i k) 0 := by
      unfold readEnv movedAll
      split
      · split
        · exact (differentiableAt_const _).add (differentiableAt_id.mul_const _)
        · exact differentiableAt_const _
      · exact differentiableAt_const _
    exact ⟨_, hd.hasFDerivAt⟩
  choose L hL using this
  exact Expr.Smooth.near (x₀ := (0 : ℝ)) (F := fun τ => readEnv l (movedAll args δ τ) p) hw hf hL (by rw [h0]; exact hs)

/-- A formula of variables `l`, differentiable at the arrays. -/
structure Piece (l : List (Int × Nat × Int)) (m n : Nat) (args : Nat → Nat → ℝ) (f : Expr) : Prop where
  wf : f.WF
  ff : f.FactFree
  vars : ∀ t ∈ f.vars, t ∈ l
  plain : f.NoBroadcast
  smooth : ∀ i < m, ∀ j < n, f.Smooth (readEnv l args (i, j))

theorem Piece.uses {l : List (Int × Nat × Int)} {m n : Nat} {args : Nat → Nat → ℝ} {f : Expr} (h : Piece l m n args f)
    (hl : PlainVars l) {v : VarId} (hv : (v.ind, v.dim, v.cat) ∈ l) : f.Uses v :=
  uses_of_vars h.ff fun u hu hi => by
    rw [hl.unique u (h.vars u hu) _ hv hi]
    exact ⟨rfl, rfl⟩

theorem Piece.near {l : List (Int × Nat × Int)} {m n : Nat} {args : Nat → Nat → ℝ} {f : Expr}
    (h : Piece l m n args f) (δ : Nat → Nat → ℝ) :
    ∀ᶠ τ in 𝓝 (0 : ℝ), ∀ i < m, ∀ j < n, f.Def (readEnv l (movedAll args δ τ) (i, j)) := by
  have : ∀ᶠ τ in 𝓝 (0 : ℝ), ∀ i ∈ range m, ∀ j ∈ range n, f.Def (readEnv l (movedAll args δ τ) (i, j)) :=
    (eventually_all_finset _).mpr fun i hi => (eventually_all_finset _).mpr fun j hj =>
      movedAll_near h.wf h.ff (i, j) (h.smooth i (mem_range.mp hi) j (mem_range.mp hj))
  filter_upwards [this] with τ hτ i hi j hj
  exact hτ i (mem_range.mpr hi) j (mem_range.mpr hj)

/-- The values of the variables do not depend on the other arrays and declarations. -/
theorem readEnv_append {l extra : List (Int × Nat × Int)} {A B : Nat → Nat → ℝ} (hl : PlainVars (l ++ extra))
    (pt : Nat × Nat) {u : Int × Nat × Int} (hu : u ∈ l) (hAB : B u.1.toNat = A u.1.toNat) :
    readEnv (l ++ extra) B pt u.1 = readEnv l A pt u.1 := by
  have hl0 : PlainVars l := ⟨fun v h => hl.pos v (List.mem_append_left _ h), fun v h => hl.cat v (List.mem_append_left _ h),
    fun a ha b hb => hl.unique a (List.mem_append_left _ ha) b (List.mem_append_left _ hb)⟩
  funext k
  rw [readEnv_at hl (List.mem_append_left _ hu), readEnv_at hl0 hu, hAB]

/-- `Diff` at a pair: the derivative when the array of `v` moves. -/
theorem pair_diff {l : List (Int × Nat × Int)} {A B : Nat → Nat → ℝ} {p r : Expr} {v : VarId} {m n nargs : Nat}
    (hl : PlainVars (l ++ [((nargs : Int), v.dim, v.cat)])) (hv : (v.ind, v.dim, v.cat) ∈ l) (hvd : 0 < v.dim)
    (hη : ∀ u ∈ l, u.1 ≠ nargs) (hAB : ∀ q, q ≠ nargs → B q = A q) (P : Piece l m n A p)
    (h : Diffs p v (tangentVar nargs v) r) (hm : 0 < m) (hn : 0 < n) :
    r.WF ∧ r.FactFree ∧ (∀ t ∈ r.vars, t ∈ l ++ [((nargs : Int), v.dim, v.cat)]) ∧ r.dim = p.dim ∧
      ∀ i < m, ∀ j < n, r.Def (readEnv (l ++ [((nargs : Int), v.dim, v.cat)]) B (i, j)) ∧ ∀ k < p.dim,
        HasDerivAt (fun τ => p.val (readEnv l (moved A v.ind.toNat (B nargs) τ) (i, j)) k)
          (r.val (readEnv (l ++ [((nargs : Int), v.dim, v.cat)]) B (i, j)) k) 0 := by
  set l' := l ++ [((nargs : Int), v.dim, v.cat)] with hl'
  have hl0 : PlainVars l := ⟨fun v h => hl.pos v (List.mem_append_left _ h), fun v h => hl.cat v (List.mem_append_left _ h),
    fun a ha b hb => hl.unique a (List.mem_append_left _ ha) b (List.mem_append_left _ hb)⟩
  have huses := P.uses hl0 hv
  obtain ⟨hrf, hrv⟩ := diffs_struct P.wf P.ff (u := tangentVar nargs v) trivial h
  have hηl : ((nargs : Int), v.dim, v.cat) ∈ l' := List.mem_append_right _ (List.mem_singleton_self _)
  have hvl : (v.ind, v.dim, v.cat) ∈ l' := List.mem_append_left _ hv
  have hvη := hη _ hv
  simp only at hvη
  have hpos : ∀ u ∈ l, u.1.toNat ≠ nargs := fun u hu => by
    have := hη u hu
    have := hl0.pos u hu
    omega
  have hagree : ∀ pt, ∀ u ∈ p.vars, readEnv l' B pt u.1 = readEnv l A pt u.1 := fun pt u hu =>
    readEnv_append hl pt (P.vars u hu) (hAB _ (hpos u (P.vars u hu)))
  have hsm : ∀ i < m, ∀ j < n, p.Smooth (readEnv l' B (i, j)) := fun i hi j hj =>
    smooth_agree P.ff (hagree (i, j)) (P.smooth i hi j hj)
  set x : Nat → Fin v.dim → ℝ := fun r k => B v.ind.toNat (r * v.dim + k) with hx
  have hself : ∀ pt, readEnv l' B pt = setVar (readEnv l' B pt) v (x (rowAt v.cat pt)) :=
    readEnv_point hl hvl (args := B) (args' := B) fun _ _ => rfl
  have hkey := fun i (hi : i < m) j (hj : j < n) => C05_diff_partial hvd P.wf P.ff P.plain huses (u := tangentVar nargs v)
    hvd rfl h (readEnv l' B (i, j)) (x (rowAt v.cat (i, j))) (by rw [← hself]; exact hsm i hi j hj) trivial
  have hwf : r.WF := by
    have hs0 := hsm 0 hm 0 hn
    rw [hself] at hs0
    obtain ⟨N, h⟩ := h
    unfold diff at h
    obtain ⟨d, h1, h⟩ := bind_ok h
    have hi : p.deg (diffInd p v (tangentVar nargs v)) = 0 :=
      Expr.deg_inds fun hm => diffInd_fresh (.inl hm) rfl
    obtain ⟨hg, hdd, -⟩ := grad_temp hvd P.wf P.ff P.plain huses hi (Ne.symm (diffInd_fresh (.inr (.inl rfl))))
      h1 _ _ hs0
    obtain ⟨R, hR, -⟩ := adjoint_res (v := ⟨diffInd p v (tangentVar nargs v), p.dim, -1⟩) P.wf.pos hg
      (u := tangentVar nargs v) (U := (tangentVar nargs v).val _) ⟨hvd, hdd.symm, trivial, fun _ => rfl⟩ h
    exact hR.wf
  have hdim : r.dim = p.dim := by
    obtain ⟨L, -, h1, -⟩ := hkey 0 hm 0 hn
    exact h1
  refine ⟨hwf, hrf, fun t ht => ?_, hdim, fun i hi j hj => ?_⟩
  · rcases hrv t ht with h1 | h1
    · exact List.mem_append_left _ (P.vars t h1)
    · rw [List.mem_singleton.mp (show t ∈ [_] from h1)]
      exact hηl
  obtain ⟨L, hL, -, hdef, hval⟩ := hkey i hi j hj
  rw [← hself] at hdef hval
  refine ⟨hdef, fun k hk => ?_⟩
  set δ : Fin v.dim → ℝ := fun k => B nargs (rowAt v.cat (i, j) * v.dim + k) with hδ
  have hline : HasDerivAt (fun τ : ℝ => x (rowAt v.cat (i, j)) + τ • δ) δ 0 := by
    simpa using ((hasDerivAt_id (0 : ℝ)).smul_const δ).const_add (x (rowAt v.cat (i, j)))
  have hD := hL
  have h0 : x (rowAt v.cat (i, j)) + (0 : ℝ) • δ = x (rowAt v.cat (i, j)) := by simp
  rw [HasDiff, ← h0] at hD
  have hfin := (hasDerivAt_pi.mp (hD.comp_hasDerivAt (0 : ℝ) hline)) ⟨k, hk⟩
  have hvec : (fun a : Fin v.dim => (tangentVar nargs v).val (readEnv l' B (i, j)) a) = δ := by
    funext a
    have ha := a.2
    simp only [tangentVar, Expr.val]
    rw [cst_eq (by omega), readEnv_at hl hηl, if_pos ha]
    simp [hδ]
  have e := hval ⟨k, hk⟩
  rw [hvec] at e
  simp only at e
  rw [e]
  refine hfin.congr_of_eventuallyEq (.of_forall fun τ => ?_)
  simp only [Function.comp]
  refine (congrFun (Expr.val_agree P.ff fun u hu => ?_) k).symm
  -- the values of the variables of the formula
  by_cases huv : u.1 = v.ind
  · have hu' : u = (v.ind, v.dim, v.cat) := hl0.unique u (P.vars u hu) _ hv huv
    subst hu'
    funext a
    rw [readEnv_at hl0 hv]
    simp only [setVar, Function.update_self]
    by_cases ha : a < v.dim
    · rw [dif_pos ha, if_pos ha]
      simp [moved, hx, hδ, hAB _ (hpos _ hv)]
    · rw [dif_neg ha, if_neg ha]
  · simp only [setVar, Function.update_of_ne huv]
    rw [hagree _ u hu]
    funext a
    rw [readEnv_at hl0 (P.vars u hu), readEnv_at hl0 (P.vars u hu)]
    have hne : u.1.toNat ≠ v.ind.toNat := by
      have := hl0.pos _ (P.vars u hu)
      have := hl0.pos _ hv
      simp only at this
      omega
    simp [moved, hne]

/-! ## The loop over the arguments -/

theorem PlainVars.add {l : List (Int × Nat × Int)} (hl : PlainVars l) {x : Int × Nat × Int} (h0 : 0 ≤ x.1)
    (hc : x.2.2 = 0 ∨ x.2.2 = 1 ∨ x.2.2 = 2) (hx : ∀ u ∈ l, u.1 ≠ x.1) : PlainVars (l ++ [x]) where
  pos v h := by
    rcases List.mem_append.mp h with h | h
    · exact hl.pos v h
    · rw [List.mem_singleton.mp h]; exact h0
  cat v h := by
    rcases List.mem_append.mp h with h | h
    · exact hl.cat v h
    · rw [List.mem_singleton.mp h]; exact hc
  unique u hu v hv e := by
    rcases List.mem_append.mp hu with h1 | h1 <;> rcases List.mem_append.mp hv with h2 | h2
    · exact hl.unique u h1 v h2 e
    · rw [List.mem_singleton.mp h2] at e
      exact absurd e (hx u h1)
    · rw [List.mem_singleton.mp h1] at e
      exact absurd e.symm (hx v h2)
    · rw [List.mem_singleton.mp h1, List.mem_singleton.mp h2]

theorem foldl_mem (ds : List (Mem ℝ)) (o : Mem ℝ) (x : Nat) :
    ds.foldl (fun out diff q => out q + diff q) o x = o x + (ds.map fun d => d x).sum := by
  induction ds generalizing o with
  | nil => simp
  | cons d ds ih => rw [List.foldl_cons, ih, List.map_cons, List.sum_cons, add_assoc]

/-- The contribution of the argument number `a`. -/
def jvpTerm (sigs : List VarId) (tangents : List (Option (Mem ℝ))) (g : VarId → Mem ℝ) (x a : Nat) : ℝ :=
  match sigs[a]?, tangents[a]? with
  | some v, some (some _) => g v x
  | _, _ => 0

theorem jvpOut_sum (sigs : List VarId) (tangents : List (Option (Mem ℝ))) (g : VarId → Mem ℝ) (x : Nat) :
    jvpOut ((jvpCalls sigs tangents).map fun c => g c.1) x =
      ∑ a ∈ range sigs.length, jvpTerm sigs tangents g x a := by
  unfold jvpOut
  rw [foldl_mem, zero_add]
  unfold jvpCalls
  induction sigs generalizing tangents with
  | nil => simp
  | cons v sigs ih =>
    cases tangents with
    | nil => simp [jvpTerm]
    | cons t tangents =>
      rw [List.length_cons, sum_range_succ', ← show (∑ a ∈ range sigs.length, jvpTerm sigs tangents g x a) =
        ∑ a ∈ range sigs.length, jvpTerm (v :: sigs) (t :: tangents) g x (a + 1) from
          sum_congr rfl fun a _ => by simp [jvpTerm], ← ih]
      cases t with
      | none => simp [jvpTerm]
      | some δ => simp [jvpTerm, add_comm]

theorem mem_jvpCalls {sigs : List VarId} {tangents : List (Option (Mem ℝ))} {a : Nat} {v : VarId} {δ : Mem ℝ}
    (h1 : sigs[a]? = some v) (h2 : tangents[a]? = some (some δ)) : (v, δ) ∈ jvpCalls sigs tangents := by
  unfold jvpCalls
  rw [List.mem_filterMap]
  refine ⟨(v, some δ), ?_, rfl⟩
  rw [List.mem_iff_getElem?]
  exact ⟨a, by rw [List.getElem?_zip_eq_some]; exact ⟨h1, h2⟩⟩

theorem jvpCalls_mem {sigs : List VarId} {tangents : List (Option (Mem ℝ))} {c : VarId × Mem ℝ}
    (h : c ∈ jvpCalls sigs tangents) : ∃ a : Nat, sigs[a]? = some c.1 ∧ tangents[a]? = some (some c.2) := by
  unfold jvpCalls at h
  rw [List.mem_filterMap] at h
  obtain ⟨⟨v, t⟩, h1, h2⟩ := h
  rw [List.mem_iff_getElem?] at h1
  obtain ⟨a, h1⟩ := h1
  rw [List.getElem?_zip_eq_some] at h1
  cases t with
  | none => cases h2
  | some δ =>
    cases h2
    exact ⟨a, h1⟩

/-- The sum of the outputs of the calls is the derivative of the sums of the formula. -/
theorem jvp_core {sigs : List VarId} {tangents : List (Option (Mem ℝ))} {L : List (Int × Nat × Int)} {p : Expr}
    {ps rs : VarId → Expr} {tagI m n : Nat} {args : Nat → Nat → ℝ} {res : Nat → ℝ}
    (hpos : ∀ (a : Nat) (v : VarId), sigs[a]? = some v → v.ind = a) (hlen : tangents.length = sigs.length)
    (hvd : ∀ v ∈ sigs, 0 < v.dim) (hL : PlainVars L) (hsub : ∀ v ∈ sigs, (v.ind, v.dim, v.cat) ∈ L)
    (hη : ∀ u ∈ L, u.1 ≠ sigs.length) (P : Piece L m n (gradArgs sigs.length args (fun _ => 0) res) p)
    (hps : ∀ c ∈ jvpCalls sigs tangents, Piece L m n (gradArgs sigs.length args (fun _ => 0) res) (ps c.1) ∧
      (ps c.1).dim = p.dim ∧ ∀ env, ∀ k < p.dim, p.val env k = (ps c.1).val env k)
    (hm : 0 < m) (hn : 0 < n) (ht : tagI < 2)
    (hr : ∀ c ∈ jvpCalls sigs tangents, Diffs (ps c.1) c.1 (tangentVar sigs.length c.1) (rs c.1)) (sch : SumScheme) :
    ∃ S, getScheme (sumRed (V := ℝ) p.dim) sch = some S ∧ (∀ c ∈ jvpCalls sigs tangents, (rs c.1).dim = p.dim) ∧
      ∀ (M : CMath), M.Exact → ∀ junk (o g : VarId → Mem ℝ),
        (∀ c ∈ jvpCalls sigs tangents, Exec (sumRed p.dim) S
          ((rs c.1).call id id M junk tagI m n (gradArgs sigs.length args c.2 res)) (o c.1) (g c.1)) →
        ∀ q < outRows tagI m n, ∀ k < p.dim,
          HasDerivAt (fun τ => sumRow p tagI m n
              (readEnv L (movedAll (gradArgs sigs.length args (fun _ => 0) res) (dirs tangents) τ)) q k)
            (jvpOut ((jvpCalls sigs tangents).map fun c => g c.1) (q * p.dim + k)) 0 := by
  obtain ⟨S, hS, -⟩ := C09_sum ℝ p.dim sch
  have hsig : ∀ c ∈ jvpCalls sigs tangents, c.1 ∈ sigs := fun c hc => by
    obtain ⟨a, h1, -⟩ := jvpCalls_mem hc
    exact List.mem_of_getElem? h1
  have hpair := fun c (hc : c ∈ jvpCalls sigs tangents) => pair_diff (B := gradArgs sigs.length args c.2 res)
    (hL.add (x := ((sigs.length : Int), c.1.dim, c.1.cat)) (Int.natCast_nonneg _) (hL.cat (c.1.ind, c.1.dim, c.1.cat) (hsub _ (hsig c hc))) hη)
    (hsub _ (hsig c hc)) (hvd _ (hsig c hc)) hη (fun q hq => by unfold gradArgs; simp only [hq, if_false])
    (hps c hc).1 (hr c hc) hm hn
  refine ⟨S, hS, fun c hc => (hpair c hc).2.2.2.1.trans (hps c hc).2.1, fun M hM junk o g hex q hq k hk => ?_⟩
  set A := gradArgs sigs.length args (fun _ => 0) res with hA
  -- the rows written by the kernels
  have hrow : ∀ c ∈ jvpCalls sigs tangents, g c.1 (q * p.dim + k) = sumRow (rs c.1) tagI m n
      (readEnv (L ++ [((sigs.length : Int), c.1.dim, c.1.cat)]) (gradArgs sigs.length args c.2 res)) q k := by
    intro c hc
    have hv := hsub _ (hsig c hc)
    obtain ⟨hw, hf, hvars, hd, hpt⟩ := hpair c hc
    obtain ⟨S', hS', h3⟩ := sum_exec (args := gradArgs sigs.length args c.2 res)
      (hL.add (x := ((sigs.length : Int), c.1.dim, c.1.cat)) (Int.natCast_nonneg _) (hL.cat (c.1.ind, c.1.dim, c.1.cat) hv) hη) hw hf hvars ht
      (m := m) (n := n) (fun i hi j hj => (hpt i hi j hj).1) sch
    have h4 := h3 M hM junk (o c.1) (g c.1)
    rw [hd, (hps c hc).2.1] at hS' h4
    rw [hS] at hS'
    cases hS'
    exact h4 (hex c hc) q hq k hk
  rw [jvpOut_sum]
  -- the contribution of each argument, pair by pair
  let D : Nat → Nat → ℝ := fun s a =>
    match sigs[a]?, tangents[a]? with
    | some v, some (some δ) => (rs v).val
        (readEnv (L ++ [((sigs.length : Int), v.dim, v.cat)]) (gradArgs sigs.length args δ res) (pairAt tagI q s)) k
    | _, _ => 0
  have hterm : ∀ a, jvpTerm sigs tangents g (q * p.dim + k) a = ∑ s ∈ range (redRows tagI m n), D s a := by
    intro a
    simp only [jvpTerm, D]
    cases h1 : sigs[a]? with
    | none => simp
    | some v =>
      cases h2 : tangents[a]? with
      | none => simp
      | some t =>
        cases t with
        | none => simp
        | some δ => exact hrow (v, δ) (mem_jvpCalls h1 h2)
  simp only [hterm]
  rw [sum_comm]
  unfold sumRow
  refine HasDerivAt.fun_sum fun s hs => ?_
  obtain ⟨p1, p2⟩ := pairAt_lt hq (mem_range.mp hs)
  refine joint_deriv P.wf P.ff _ (fun a b hab => ?_) (P.smooth _ p1 _ p2) hk (D s) fun a ha => ?_
  · unfold dirs
    rw [List.getElem?_eq_none (by omega)]
  · have h1 : sigs[a]? = some sigs[a] := List.getElem?_eq_getElem ha
    have hind := hpos a _ h1
    have hzero : (∀ b, dirs tangents a b = 0) →
        HasDerivAt (fun τ => p.val (readEnv L (moved A a (dirs tangents a) τ) (pairAt tagI q s)) k) 0 0 := fun h0 => by
      have : ∀ τ, moved A a (dirs tangents a) τ = A := fun τ => by
        funext b c
        simp [moved, h0]
      simp only [this]
      exact hasDerivAt_const _ _
    simp only [D, h1]
    cases h2 : tangents[a]? with
    | none => exact hzero fun b => by simp [dirs, h2]
    | some t =>
      cases t with
      | none => exact hzero fun b => by simp [dirs, h2]
      | some δ =>
        have h3 := ((hpair (sigs[a], δ) (mem_jvpCalls h1 h2)).2.2.2.2 _ p1 _ p2).2 k
          (by rw [(hps _ (mem_jvpCalls h1 h2)).2.1]; exact hk)
        have e1 : (sigs[a] : VarId).ind.toNat = a := by rw [hind, Int.toNat_natCast]
        have e2 : gradArgs sigs.length args δ res sigs.length = dirs tangents a := by
          funext b
          simp [gradArgs, dirs, h2]
        simp only at h3
        rw [e1, e2] at h3
        exact h3.congr_of_eventuallyEq (.of_forall fun τ => (hps _ (mem_jvpCalls h1 h2)).2.2 _ k hk)

theorem readEnv_congr {l : List (Int × Nat × Int)} {A B : Nat → Nat → ℝ} (h : ∀ u ∈ l, A u.1.toNat = B u.1.toNat)
    (p : Nat × Nat) : readEnv l A p = readEnv l B p := by
  funext w k
  unfold readEnv
  split
  · rename_i u hu
    rw [h u (List.mem_of_find?_eq_some hu)]
  · rfl

/-- Declarations in the order of their positions. -/
theorem declared_plain {sigs : List VarId} (ho : ∀ (a : Nat) (v : VarId), sigs[a]? = some v → v.ind = a)
    (hs : ∀ v ∈ sigs, 0 < v.dim ∧ (v.cat = 0 ∨ v.cat = 1 ∨ v.cat = 2)) :
    PlainVars (declared sigs) ∧ ∀ u ∈ declared sigs, u.1.toNat < sigs.length := by
  have hm : ∀ u ∈ declared sigs, ∃ (a : Nat) (v : VarId), sigs[a]? = some v ∧ u = (v.ind, v.dim, v.cat) := fun u hu => by
    obtain ⟨v, h1, rfl⟩ := List.mem_map.mp hu
    obtain ⟨a, h2⟩ := List.mem_iff_getElem?.mp h1
    exact ⟨a, v, h2, rfl⟩
  refine ⟨⟨fun u hu => ?_, fun u hu => ?_, fun u hu w hw e => ?_⟩, fun u hu => ?_⟩
  · obtain ⟨a, v, h1, rfl⟩ := hm u hu
    simp only [ho a v h1]
    exact Int.natCast_nonneg _
  · obtain ⟨a, v, h1, rfl⟩ := hm u hu
    exact (hs v (List.mem_of_getElem? h1)).2
  · obtain ⟨a, v, h1, rfl⟩ := hm u hu
    obtain ⟨b, x, h2, rfl⟩ := hm w hw
    simp only [ho a v h1, ho b x h2, Nat.cast_inj] at e
    subst e
    rw [h1] at h2
    cases h2
    rfl
  · obtain ⟨a, v, h1, rfl⟩ := hm u hu
    simp only [ho a v h1, Int.toNat_natCast]
    exact (List.getElem?_eq_some_iff.mp h1).1

end Verif
