import Verif.Props.JvpBatch
import Verif.Props.JvpLse
import Verif.Proofs.BackwardLseBatch

/-!
# Forward-mode derivatives of shifted sums, with batch dimensions
-/

namespace Verif

open Finset Spec Filter Topology

/-- A formula of a call with batch dimensions, differentiable in each batch. -/
structure PieceB (l : List (Int × Nat × Int)) (m n : Nat) (shapes : List (List Nat)) (batch : List Nat)
    (args : Nat → Nat → ℝ) (f : Expr) : Prop where
  wf : f.WF
  ff : f.FactFree
  vars : ∀ t ∈ f.vars, t ∈ l
  plain : f.NoBroadcast
  smooth : ∀ b, Arr.Idx batch b → ∀ i < m, ∀ j < n, f.Smooth (readBatch l shapes args b (i, j))

theorem PieceB.view {l : List (Int × Nat × Int)} {m n : Nat} {shapes : List (List Nat)} {batch : List Nat}
    {args : Nat → Nat → ℝ} {f : Expr} (h : PieceB l m n shapes batch args f) (hl : PlainVars l)
    (hs : CallShapes l shapes batch m n) {b : List Nat} (hb : Arr.Idx batch b) :
    Piece l m n (viewB l shapes m n b args) f :=
  ⟨h.wf, h.ff, h.vars, h.plain, fun i hi j hj => by
    rw [readEnv_view hl hs hb args (p := (i, j)) hi hj]
    exact h.smooth b hb i hi j hj⟩

theorem PieceB.near {l : List (Int × Nat × Int)} {m n : Nat} {shapes : List (List Nat)} {batch : List Nat}
    {args : Nat → Nat → ℝ} {f : Expr} (h : PieceB l m n shapes batch args f) (hl : PlainVars l)
    (hs : CallShapes l shapes batch m n) (δ : Nat → Nat → ℝ) {b : List Nat} (hb : Arr.Idx batch b) :
    ∀ᶠ τ in 𝓝 (0 : ℝ), ∀ i < m, ∀ j < n, f.Def (readBatch l shapes (movedAll args δ τ) b (i, j)) := by
  filter_upwards [(h.view hl hs hb).near (viewB l shapes m n b δ)] with τ hτ i hi j hj
  rw [← readEnv_view hl hs hb _ (p := (i, j)) hi hj, viewB_moved]
  exact hτ i hi j hj

/-- `jvp_row`, where the formula that is differentiated depends on the argument. -/
theorem jvp_row_of {sigs : List VarId} {tangents : List (Option (Mem ℝ))} {L : List (Int × Nat × Int)} {p : Expr}
    {ps rs : VarId → Expr} {tagI m n : Nat} {A Δ : Nat → Nat → ℝ} {B : VarId × Mem ℝ → Nat → Nat → ℝ}
    (hpos : ∀ (a : Nat) (v : VarId), sigs[a]? = some v → v.ind = a)
    (hvd : ∀ v ∈ sigs, 0 < v.dim) (hL : PlainVars L) (hsub : ∀ v ∈ sigs, (v.ind, v.dim, v.cat) ∈ L)
    (hη : ∀ u ∈ L, u.1 ≠ sigs.length) (P : Piece L m n A p)
    (hps : ∀ c ∈ jvpCalls sigs tangents, Piece L m n A (ps c.1) ∧ (ps c.1).dim = p.dim ∧
      ∀ env, ∀ k < p.dim, p.val env k = (ps c.1).val env k)
    (hr : ∀ c ∈ jvpCalls sigs tangents, Diffs (ps c.1) c.1 (tangentVar sigs.length c.1) (rs c.1))
    (hAB : ∀ c ∈ jvpCalls sigs tangents, ∀ q, q ≠ sigs.length → B c q = A q)
    (hdir : ∀ (a : Nat) v δ, sigs[a]? = some v → tangents[a]? = some (some δ) → B (v, δ) sigs.length = Δ a)
    (h0 : ∀ a : Nat, (sigs.length ≤ a ∨ ∀ δ, tangents[a]? ≠ some (some δ)) → ∀ k, Δ a k = 0)
    {g : VarId → Mem ℝ} {q k x : Nat} (hq : q < outRows tagI m n) (hk : k < p.dim)
    (hrow : ∀ c ∈ jvpCalls sigs tangents, g c.1 x = sumRow (rs c.1) tagI m n
      (readEnv (L ++ [((sigs.length : Int), c.1.dim, c.1.cat)]) (B c)) q k) :
    HasDerivAt (fun τ => sumRow p tagI m n (readEnv L (movedAll A Δ τ)) q k)
      (jvpOut ((jvpCalls sigs tangents).map fun c => g c.1) x) 0 := by
  have hsig : ∀ c ∈ jvpCalls sigs tangents, c.1 ∈ sigs := fun c hc => by
    obtain ⟨a, h1, -⟩ := jvpCalls_mem hc
    exact List.mem_of_getElem? h1
  rw [jvpOut_sum]
  let D : Nat → Nat → ℝ := fun s a =>
    match sigs[a]?, tangents[a]? with
    | some v, some (some δ) => (rs v).val
        (readEnv (L ++ [((sigs.length : Int), v.dim, v.cat)]) (B (v, δ)) (pairAt tagI q s)) k
    | _, _ => 0
  have hterm : ∀ a, jvpTerm sigs tangents g x a = ∑ s ∈ range (redRows tagI m n), D s a := by
    intro a
    simp only [jvpTerm, D]
    cases h1 : sigs[a]? with
    | none => simp
    | some v =>
      cases h2 : tangents[a]? with
      | none => simp
      | some t =>
        cases t with
        | none => simp
        | some δ => exact hrow (v, δ) (mem_jvpCalls h1 h2)
  simp only [hterm]
  rw [sum_comm]
  unfold sumRow
  refine HasDerivAt.fun_sum fun s hs => ?_
  obtain ⟨p1, p2⟩ := pairAt_lt hq (mem_range.mp hs)
  refine joint_deriv P.wf P.ff _ (fun a b hab => h0 a (.inl hab) b) (P.smooth _ p1 _ p2) hk (D s) fun a ha => ?_
  have h1 : sigs[a]? = some sigs[a] := List.getElem?_eq_getElem ha
  have hind := hpos a _ h1
  have hzero : (∀ b, Δ a b = 0) →
      HasDerivAt (fun τ => p.val (readEnv L (moved A a (Δ a) τ) (pairAt tagI q s)) k) 0 0 := fun h0 => by
    have : ∀ τ, moved A a (Δ a) τ = A := fun τ => by
      funext b c
      simp [moved, h0]
    simp only [this]
    exact hasDerivAt_const _ _
  simp only [D, h1]
  cases h2 : tangents[a]? with
  | none => exact hzero (h0 a (.inr fun δ => by rw [h2]; simp))
  | some t =>
    cases t with
    | none => exact hzero (h0 a (.inr fun δ => by rw [h2]; simp))
    | some δ =>
      have hc := mem_jvpCalls h1 h2
      obtain ⟨Pc, hdc, hvc⟩ := hps _ hc
      have h3 := ((pair_diff (B := B (sigs[a], δ))
        (hL.add (x := ((sigs.length : Int), sigs[a].dim, sigs[a].cat)) (Int.natCast_nonneg _)
          (hL.cat (sigs[a].ind, sigs[a].dim, sigs[a].cat) (hsub _ (hsig _ hc))) hη)
        (hsub _ (hsig _ hc)) (hvd _ (hsig _ hc)) hη (hAB _ hc) Pc (hr _ hc) (by omega) (by omega)).2.2.2.2 _ p1 _ p2).2 k
        (by rw [hdc]; exact hk)
      have e1 : (sigs[a] : VarId).ind.toNat = a := by rw [hind, Int.toNat_natCast]
      simp only at h3
      rw [e1, hdir a _ δ h1 h2] at h3
      simp only [hvc _ k hk]
      exact h3

/-- The kernels of the forward mode in each batch, for a formula that may also read the saved output (the variable
`nargs + 1`), of shape `os`. -/
theorem jvp_core_batch {sigs : List VarId} {tangents : List (Option (Mem ℝ))} {L : List (Int × Nat × Int)} {p : Expr}
    {ps rs : VarId → Expr} {tagI m n : Nat} {shapes : List (List Nat)} {batch os : List Nat} {args : Nat → Nat → ℝ}
    (hpos : ∀ (a : Nat) (v : VarId), sigs[a]? = some v → v.ind = a) (hlen : tangents.length = sigs.length)
    (hvd : ∀ v ∈ sigs, 0 < v.dim) (hL : PlainVars L) (hsub : ∀ v ∈ sigs, (v.ind, v.dim, v.cat) ∈ L)
    (hη : ∀ u ∈ L, u.1 ≠ sigs.length) (hcount : shapes.length = sigs.length)
    (hcsL : CallShapes L (shapes ++ [[], os]) batch m n)
    (P : ∀ res, PieceB L m n (shapes ++ [[], os]) batch (gradArgs sigs.length args (fun _ => 0) res) p)
    (hps : ∀ res, ∀ c ∈ jvpCalls sigs tangents,
      PieceB L m n (shapes ++ [[], os]) batch (gradArgs sigs.length args (fun _ => 0) res) (ps c.1) ∧
      (ps c.1).dim = p.dim ∧ ∀ env, ∀ k < p.dim, p.val env k = (ps c.1).val env k)
    (hm : 0 < m) (hn : 0 < n) (ht : tagI < 2)
    (hr : ∀ c ∈ jvpCalls sigs tangents, Diffs (ps c.1) c.1 (tangentVar sigs.length c.1) (rs c.1))
    (hb : ∀ c ∈ jvpCalls sigs tangents, CallBatch (rs c.1) (jvpShapes shapes c.1 os) batch) (sch : SumScheme) :
    ∃ S, getScheme (sumRed (V := ℝ) p.dim) sch = some S ∧ (∀ c ∈ jvpCalls sigs tangents, (rs c.1).dim = p.dim) ∧
      ∀ (M : CMath), M.Exact → ∀ junk dimout nrows (res : Nat → ℝ),
        (∀ c ∈ jvpCalls sigs tangents, ∃ Q, rangeCall ((rs c.1).call id id M junk tagI m n
            (gradArgs sigs.length args c.2 res)).ev (rs c.1).inputs tagI (gradArgs sigs.length args c.2 res)
            (jvpShapes shapes c.1 os) m n dimout nrows none = some Q) ∧
        ∀ (o g : VarId → Mem ℝ),
        (∀ c ∈ jvpCalls sigs tangents, ∀ Q, rangeCall ((rs c.1).call id id M junk tagI m n
            (gradArgs sigs.length args c.2 res)).ev (rs c.1).inputs tagI (gradArgs sigs.length args c.2 res)
            (jvpShapes shapes c.1 os) m n dimout nrows none = some Q → RExec (sumRed p.dim) S Q (o c.1) (g c.1)) →
        ∀ b, Arr.Idx batch b → ∀ q < outRows tagI m n, ∀ k < p.dim,
          HasDerivAt (fun τ => sumRow p tagI m n (readBatch L (shapes ++ [[], os])
              (movedAll (gradArgs sigs.length args (fun _ => 0) res) (dirs tangents) τ) b) q k)
            (jvpOut ((jvpCalls sigs tangents).map fun c => g c.1)
              (Spec.pos (outShape batch tagI m n p.dim) (b ++ [q, k]))) 0 := by
  have hsig : ∀ c ∈ jvpCalls sigs tangents, c.1 ∈ sigs := fun c hc => by
    obtain ⟨a, h1, -⟩ := jvpCalls_mem hc
    exact List.mem_of_getElem? h1
  have hext : ∀ c ∈ jvpCalls sigs tangents, PlainVars (L ++ [((sigs.length : Int), c.1.dim, c.1.cat)]) := fun c hc =>
    hL.add (x := ((sigs.length : Int), c.1.dim, c.1.cat)) (Int.natCast_nonneg _)
      (hL.cat (c.1.ind, c.1.dim, c.1.cat) (hsub _ (hsig c hc))) hη
  have hother : ∀ (v : VarId) q, q ≠ sigs.length → (jvpShapes shapes v os).getD q [] = (shapes ++ [[], os]).getD q [] :=
    fun v q hq => by
      unfold jvpShapes
      by_cases h1 : q < shapes.length
      · rw [List.getD_append _ _ _ _ h1, List.getD_append _ _ _ _ h1]
      · rw [List.getD_append_right _ _ _ _ (by omega), List.getD_append_right _ _ _ _ (by omega)]
        obtain ⟨d, hd⟩ : ∃ d, q - shapes.length = d + 1 := ⟨q - shapes.length - 1, by omega⟩
        rw [hd]
        rfl
  have hind : ∀ v ∈ sigs, v.ind.toNat < sigs.length := fun v hv => by
    obtain ⟨a, ha⟩ := List.mem_iff_getElem?.mp hv
    have := hpos a v ha
    have := (List.getElem?_eq_some_iff.mp ha).1
    omega
  have hnew : ∀ v ∈ sigs, (jvpShapes shapes v os).getD sigs.length [] = (shapes ++ [[], os]).getD v.ind.toNat [] :=
    fun v hv => by
      have := hind v hv
      rw [List.getD_append _ _ _ _ (by omega)]
      simp [jvpShapes, List.getD_eq_getElem?_getD, hcount.symm]
  have hcs : ∀ c ∈ jvpCalls sigs tangents,
      CallShapes (L ++ [((sigs.length : Int), c.1.dim, c.1.cat)]) (jvpShapes shapes c.1 os) batch m n := fun c hc u hu => by
    rcases List.mem_append.mp hu with h1 | h1
    · have := hη u h1
      have := hL.pos u h1
      rw [hother _ _ (by omega)]
      exact hcsL u h1
    · rw [List.mem_singleton.mp h1]
      simp only [Int.toNat_natCast, hnew _ (hsig c hc)]
      exact hcsL _ (hsub _ (hsig c hc))
  set sg := shapes ++ [[], os] with hsg
  set A : List Nat → (Nat → ℝ) → Nat → Nat → ℝ := fun b res =>
    viewB L sg m n b (gradArgs sigs.length args (fun _ => 0) res) with hA
  set B : List Nat → (Nat → ℝ) → VarId × Mem ℝ → Nat → Nat → ℝ := fun b res c =>
    viewB (L ++ [((sigs.length : Int), c.1.dim, c.1.cat)]) (jvpShapes shapes c.1 os) m n b
      (gradArgs sigs.length args c.2 res) with hB
  have hlenB : ∀ (c : VarId × Mem ℝ) q, q ≠ sigs.length →
      blockLen (L ++ [((sigs.length : Int), c.1.dim, c.1.cat)]) m n q = blockLen L m n q := fun c q hq => by
    simp only [blockLen, List.find?_append]
    cases hf : L.find? (fun u => decide (u.1 = (q : Int))) with
    | none => simp [Ne.symm hq]
    | some u => simp
  have hAB : ∀ b res, ∀ c ∈ jvpCalls sigs tangents, ∀ q, q ≠ sigs.length → B b res c q = A b res q :=
    fun b res c hc q hq => by
      funext k
      simp only [hB, hA, viewB, hlenB c q hq, hother _ _ hq]
      simp only [gradArgs, hq, if_false]
  have hdir : ∀ b res (a : Nat) v δ, sigs[a]? = some v → tangents[a]? = some (some δ) →
      B b res (v, δ) sigs.length = viewB L sg m n b (dirs tangents) a := fun b res a v δ h1 h2 => by
    have hv : v ∈ sigs := List.mem_of_getElem? h1
    have hva := hpos a v h1
    funext k
    have e1 : blockLen (L ++ [((sigs.length : Int), v.dim, v.cat)]) m n sigs.length = blockLen L m n a := by
      have f1 : L.find? (fun u => decide (u.1 = (sigs.length : Int))) = none := by
        rw [List.find?_eq_none]
        intro u hu
        simpa using hη u hu
      have f2 := find_var hL (hsub v hv)
      simp only [hva] at f2
      simp only [blockLen, List.find?_append, f1, f2]
      simp
    have e2 : v.ind.toNat = a := by rw [hva, Int.toNat_natCast]
    simp only [hB, viewB, hnew v hv, e1, e2]
    simp [gradArgs, dirs, h2]
  have h0 : ∀ b (a : Nat), (sigs.length ≤ a ∨ ∀ δ, tangents[a]? ≠ some (some δ)) → ∀ k,
      viewB L sg m n b (dirs tangents) a k = 0 := fun b a ha k => by
    simp only [viewB, dirs]
    rcases ha with ha | ha
    · rw [List.getElem?_eq_none (by omega)]
    · split
      · rename_i δ hδ
        exact absurd hδ (ha δ)
      · rfl
  obtain ⟨S, hS, -⟩ := C18_sum_partial ℝ p.dim sch
  have hpair := fun res b (hb : Arr.Idx batch b) c (hc : c ∈ jvpCalls sigs tangents) => pair_diff (B := B b res c) (hext c hc)
    (hsub _ (hsig c hc)) (hvd _ (hsig c hc)) hη (hAB b res c hc) ((hps res c hc).1.view hL hcsL hb) (hr c hc) hm hn
  have hz0 : ∀ c ∈ jvpCalls sigs tangents, Arr.Idx batch (batch.map fun _ => 0) := fun c hc => by
    obtain ⟨xb, hx, -⟩ := hcsL _ (hsub _ (hsig c hc))
    exact idx_zero hx
  have hdim : ∀ c ∈ jvpCalls sigs tangents, (rs c.1).dim = p.dim := fun c hc =>
    (hpair (fun _ => 0) _ (hz0 c hc) c hc).2.2.2.1.trans (hps (fun _ => 0) c hc).2.1
  have hrun : ∀ res, ∀ c ∈ jvpCalls sigs tangents, ∀ M : CMath, M.Exact → ∀ junk dimout rows,
      ∃ Q, rangeCall ((rs c.1).call id id M junk tagI m n (gradArgs sigs.length args c.2 res)).ev (rs c.1).inputs tagI
          (gradArgs sigs.length args c.2 res) (jvpShapes shapes c.1 os) m n dimout rows none = some Q ∧
      ∀ out out', RExec (sumRed p.dim) S Q out out' →
      ∀ b, Arr.Idx batch b → ∀ q < outRows tagI m n, ∀ k < p.dim,
        out' (Spec.pos (outShape batch tagI m n p.dim) (b ++ [q, k])) = sumRow (rs c.1) tagI m n
          (readEnv (L ++ [((sigs.length : Int), c.1.dim, c.1.cat)]) (B b res c)) q k := fun res c hc M hM junk dimout rows => by
    obtain ⟨rw', rf, rv, -, -⟩ := hpair res _ (hz0 c hc) c hc
    have rd := hdim c hc
    obtain ⟨S', hS', h1⟩ := sum_exec_batch (args := gradArgs sigs.length args c.2 res) (hext c hc) rw' rf rv ht
      (fun u hu => hcs c hc u (rv u hu)) (hb c hc) sch
    rw [rd] at hS'
    rw [hS] at hS'
    cases hS'
    obtain ⟨Q, h2, h3⟩ := h1 M hM junk dimout rows
    refine ⟨Q, h2, fun out out' he b hb q hq k hk => ?_⟩
    rw [rd] at h3
    rw [outShape, h3 out out' he (fun b hb i hi j hj => ?_) b hb q hq k hk]
    · unfold sumRow
      refine sum_congr rfl fun s hs => ?_
      obtain ⟨p1, p2⟩ := pairAt_lt hq (mem_range.mp hs)
      rw [hB, readEnv_view (hext c hc) (hcs c hc) hb _ p1 p2]
    · have := ((hpair res b hb c hc).2.2.2.2 i hi j hj).1
      rw [hB, readEnv_view (hext c hc) (hcs c hc) hb _ (p := (i, j)) hi hj] at this
      exact this
  refine ⟨S, hS, hdim, fun M hM junk dimout rows res => ⟨fun c hc => ?_, fun o g hg b hb q hq k hk => ?_⟩⟩
  · obtain ⟨Q, h1, -⟩ := hrun res c hc M hM junk dimout rows
    exact ⟨Q, h1⟩
  have hkey := jvp_row_of (ps := ps) (rs := rs) (g := g) (x := Spec.pos (outShape batch tagI m n p.dim) (b ++ [q, k])) hpos hvd
    hL hsub hη ((P res).view hL hcsL hb) (fun c hc => ⟨(hps res c hc).1.view hL hcsL hb, (hps res c hc).2⟩) hr (hAB b res)
    (hdir b res) (h0 b) hq hk (fun c hc => by
      obtain ⟨Q, h1, h2⟩ := hrun res c hc M hM junk dimout rows
      exact h2 _ _ (hg c hc Q h1) b hb q hq k hk)
  refine hkey.congr_of_eventuallyEq (.of_forall fun τ => ?_)
  unfold sumRow
  refine sum_congr rfl fun s hs => ?_
  obtain ⟨p1, p2⟩ := pairAt_lt hq (mem_range.mp hs)
  rw [← viewB_moved, readEnv_view hL hcsL hb _ p1 p2]

section

variable {f ω : Expr} {sigs : List VarId} {tagI m n : Nat} {shapes : List (List Nat)} {batch : List Nat}
  {args : Nat → Nat → ℝ}

/-- The kernels of the forward mode for a shifted sum, with batch dimensions. -/
theorem weight_jvp_batch (ho : ∀ (a : Nat) (v : VarId), sigs[a]? = some v → v.ind = a)
    (hs : ∀ v ∈ sigs, 0 < v.dim ∧ (v.cat = 0 ∨ v.cat = 1 ∨ v.cat = 2)) (ht : tagI < 2) (hm : 0 < m) (hn : 0 < n)
    (hcount : shapes.length = sigs.length) (hcs : CallShapes (declared sigs) shapes batch m n)
    (hbb : Broadcasts batch batch)
    (pf : PieceB (declared sigs) m n shapes batch args f) (pw : PieceB (declared sigs) m n shapes batch args ω)
    (h1 : f.dim = 1)
    (tangents : List (Option (Mem ℝ))) (hlen : tangents.length = sigs.length) (rs : VarId → Expr)
    (hr : ∀ c ∈ jvpCalls sigs tangents, RedDiffs (.maxSumShiftExp f ω tagI) c.1 (tangentVar sigs.length c.1)
      (resVar sigs.length (1 + ω.dim) tagI) (.sum (rs c.1) tagI))
    (hb : ∀ c ∈ jvpCalls sigs tangents,
      CallBatch (rs c.1) (jvpShapes shapes c.1 (outShape batch tagI m n (1 + ω.dim))) batch) (sch : SumScheme) :
    ∃ S, getScheme (sumRed (V := ℝ) (1 + ω.dim)) sch = some S ∧
      (∀ c ∈ jvpCalls sigs tangents, (rs c.1).dim = 1 + ω.dim) ∧
      ∀ (M : CMath), M.Exact → ∀ junk dimout nrows (res : Nat → ℝ),
        (∀ c ∈ jvpCalls sigs tangents, ∃ Q, rangeCall ((rs c.1).call id id M junk tagI m n
            (gradArgs sigs.length args c.2 res)).ev (rs c.1).inputs tagI (gradArgs sigs.length args c.2 res)
            (jvpShapes shapes c.1 (outShape batch tagI m n (1 + ω.dim))) m n dimout nrows none = some Q) ∧
        ∀ (o g : VarId → Mem ℝ),
        (∀ c ∈ jvpCalls sigs tangents, ∀ Q, rangeCall ((rs c.1).call id id M junk tagI m n
            (gradArgs sigs.length args c.2 res)).ev (rs c.1).inputs tagI (gradArgs sigs.length args c.2 res)
            (jvpShapes shapes c.1 (outShape batch tagI m n (1 + ω.dim))) m n dimout nrows none = some Q →
          RExec (sumRed (1 + ω.dim)) S Q (o c.1) (g c.1)) →
        ∀ b, Arr.Idx batch b → ∀ q < outRows tagI m n,
          jvpOut ((jvpCalls sigs tangents).map fun c => g c.1)
            (Spec.pos (outShape batch tagI m n (1 + ω.dim)) (b ++ [q, 0])) = 0 ∧
          ∀ k < ω.dim, HasDerivAt (fun τ => ∑ s ∈ range (redRows tagI m n),
              Real.exp (f.val (readBatch (declared sigs) shapes (movedAll args (dirs tangents) τ) b (pairAt tagI q s)) 0 -
                res (Spec.pos (outShape batch tagI m n (1 + ω.dim)) (b ++ [q, 0]))) *
              ω.val (readBatch (declared sigs) shapes (movedAll args (dirs tangents) τ) b (pairAt tagI q s)) k)
            (jvpOut ((jvpCalls sigs tangents).map fun c => g c.1)
              (Spec.pos (outShape batch tagI m n (1 + ω.dim)) (b ++ [q, 1 + k]))) 0 := by
  obtain ⟨hl, hlt⟩ := declared_plain ho hs
  set os := outShape batch tagI m n (1 + ω.dim) with hos
  set u : Int := ((sigs.length + 1 : Nat) : Int) with hu
  set L := declared sigs ++ [(u, 1 + ω.dim, (tagI : Int))] with hLdef
  set sg := shapes ++ [[], os] with hsg
  have hL : PlainVars L := hl.add (x := (u, 1 + ω.dim, (tagI : Int))) (Int.natCast_nonneg _)
    (by simp only; omega) fun x hx => by
      have := hlt x hx
      have := hl.pos x hx
      simp only [hu]
      omega
  have hη : ∀ x ∈ L, x.1 ≠ sigs.length := fun x hx => by
    rcases List.mem_append.mp hx with hx | hx
    · have := hlt x hx
      have := hl.pos x hx
      omega
    · rw [List.mem_singleton.mp hx]
      simp only [hu]
      omega
  have hul : (u, 1 + ω.dim, (tagI : Int)) ∈ L := List.mem_append_right _ (List.mem_singleton_self _)
  have hsub : ∀ x ∈ declared sigs, x ∈ L := fun x hx => List.mem_append_left _ hx
  have hold : ∀ x ∈ declared sigs, sg.getD x.1.toNat [] = shapes.getD x.1.toNat [] := fun x hx => by
    have := hlt x hx
    have := hl.pos x hx
    exact List.getD_append _ _ _ _ (by omega)
  have hgu : sg.getD u.toNat [] = batch ++ tailShape (tagI : Int) (if (tagI : Int) = 1 then n else m) (1 + ω.dim) := by
    have e1 : u.toNat = sigs.length + 1 := Int.toNat_natCast _
    rw [e1, hsg, List.getD_append_right _ _ _ _ (by omega), show sigs.length + 1 - shapes.length = 1 by omega]
    obtain rfl | rfl : tagI = 0 ∨ tagI = 1 := by omega
    · simp [hos, outShape, outRows, tailShape]
    · simp [hos, outShape, outRows, tailShape]
  have hcsL : CallShapes L sg batch m n := fun x hx => by
    rcases List.mem_append.mp hx with hx | hx
    · rw [hold x hx]
      exact hcs x hx
    · rw [List.mem_singleton.mp hx]
      exact ⟨batch, hbb, hgu⟩
  have hw0 := pw.wf.pos
  obtain ⟨S0, hS0, -⟩ := C18_sum_partial ℝ (1 + ω.dim) sch
  -- the formulas that are differentiated
  have hshift : ∀ c ∈ jvpCalls sigs tangents, ∃ N p x, shiftExp N f ω (.var u (1 + ω.dim) tagI) = .ok p ∧
      mkBin .concat (.zero 1) p = .ok x ∧ Diffs x c.1 (tangentVar sigs.length c.1) (rs c.1) := fun c hc => by
    obtain ⟨N, h⟩ := hr c hc
    simp only [RedExpr.diff] at h
    obtain ⟨p, e1, h⟩ := bind_ok' h
    obtain ⟨x, e2, h⟩ := bind_ok' h
    obtain ⟨r, e3, h⟩ := bind_ok' h
    cases h
    rw [h1] at e2
    exact ⟨N, p, x, e1, e2, N, e3⟩
  have hat : ∀ {N p x}, shiftExp N f ω (.var u (1 + ω.dim) tagI) = .ok p → mkBin .concat (.zero 1) p = .ok x →
      ∀ {Δ : Domain} {env : Env}, f.Dom Δ env → ω.Dom Δ env → Δ.var u (1 + ω.dim) tagI →
      Δ.un (.extract 0 1) (1 + ω.dim) (cst (1 + ω.dim) (env u)) → (∀ V, Δ.bin .concat 1 ω.dim (fun _ => 0) V) →
      At Δ env x (1 + ω.dim) fun k => if k = 0 then 0 else Real.exp (f.val env 0 - env u 0) * ω.val env (k - 1) := by
    intro N p x e1 e2 Δ env df dw du dx dc
    have hz : At Δ env (.zero 1) 1 fun _ => 0 := ⟨by simp [Expr.WF], rfl, trivial, fun _ => rfl⟩
    refine (hz.bin (shiftExp_at pf.wf pw.wf h1 df dw du dx e1) (o := .concat) (dc _) e2).2.congr rfl fun k => ?_
    simp only [binVal, cst]
    by_cases hk : k = 0 <;> simp [hk, hw0.ne']
  have hlow : ∀ x ∈ declared sigs, x.1.toNat < sigs.length := fun x hx => by
    have := hlt x hx
    have := hl.pos x hx
    omega
  have hread : ∀ (res : Nat → ℝ) τ b p, ∀ x ∈ declared sigs,
      readBatch L sg (movedAll (gradArgs sigs.length args (fun _ => 0) res) (dirs tangents) τ) b p x.1 =
        readBatch (declared sigs) shapes (movedAll args (dirs tangents) τ) b p x.1 := fun res τ b p x hx =>
    readBatch_congr hl hL hx (hsub x hx) (hold x hx) (by
      funext k
      simp [movedAll, gradArgs, hlow x hx]) p
  have h0 : ∀ A : Nat → Nat → ℝ, movedAll A (dirs tangents) 0 = A := fun A => by funext a k; simp [movedAll]
  have hz0 : Arr.Idx batch (batch.map fun _ => 0) := idx_zero hbb
  have hpiece : ∀ {N p x}, shiftExp N f ω (.var u (1 + ω.dim) tagI) = .ok p →
      mkBin .concat (.zero 1) p = .ok x → ∀ (res : Nat → ℝ),
      PieceB L m n sg batch (gradArgs sigs.length args (fun _ => 0) res) x := by
    intro N p x e1 e2 res
    have hagree : ∀ b p, ∀ x ∈ declared sigs, readBatch L sg (gradArgs sigs.length args (fun _ => 0) res) b p x.1 =
        readBatch (declared sigs) shapes args b p x.1 := fun b p x hx => by
      have := hread res 0 b p x hx
      rwa [h0, h0] at this
    have hus : ∀ e : Expr, PieceB (declared sigs) m n shapes batch args e → e.Uses ⟨-1, 1, 0⟩ := fun e he =>
      uses_of_vars he.ff fun y hy hi => by
        have := hl.pos y (he.vars y hy)
        simp only at hi
        omega
    have hdom : ∀ b, Arr.Idx batch b → ∀ i < m, ∀ j < n, x.Dom (.smooth ⟨-1, 1, 0⟩)
        (readBatch L sg (gradArgs sigs.length args (fun _ => 0) res) b (i, j)) := fun b hb i hi j hj =>
      (hat e1 e2 (Expr.dom_smooth.mpr ⟨smooth_agree pf.ff (fun y hy => hagree _ _ y (pf.vars y hy))
          (pf.smooth b hb i hi j hj), pf.plain, hus f pf, pf.ff⟩)
        (Expr.dom_smooth.mpr ⟨smooth_agree pw.ff (fun y hy => hagree _ _ y (pw.vars y hy)) (pw.smooth b hb i hi j hj),
          pw.plain, hus ω pw, pw.ff⟩) (fun e => absurd e (by simp only [hu]; omega)) trivial
        fun V => ⟨trivial, fun h => by rcases h with h | h <;> cases h⟩).dom
    obtain ⟨-, np, -, fp⟩ := Expr.dom_smooth.mp (hdom _ hz0 0 hm 0 hn)
    have hp : At (structDom (fun i d c => (i, d, c) ∈ L) fun _ => True) (fun _ _ => 0) x (1 + ω.dim) _ :=
      hat e1 e2 (struct_dom pf.ff fun t ht => hsub _ (pf.vars t ht))
        (struct_dom pw.ff fun t ht => hsub _ (pw.vars t ht)) hul trivial fun _ => trivial
    exact ⟨hp.wf, fp, (dom_struct hp.dom).2, np, fun b hb i hi j hj => (Expr.dom_smooth.mp (hdom b hb i hi j hj)).1⟩
  have hval : ∀ {N p x}, shiftExp N f ω (.var u (1 + ω.dim) tagI) = .ok p → mkBin .concat (.zero 1) p = .ok x →
      ∀ env, At .triv env x (1 + ω.dim) fun k =>
        if k = 0 then 0 else Real.exp (f.val env 0 - env u 0) * ω.val env (k - 1) := fun e1 e2 env =>
    hat e1 e2 (f.dom_triv env) (ω.dom_triv env) trivial trivial fun _ => trivial
  have : Nonempty Expr := ⟨.zero 1⟩
  choose! Ns pp ps hp1 hp2 hp3 using hshift
  by_cases hemp : jvpCalls sigs tangents = []
  · -- no tangent
    refine ⟨S0, hS0, by simp [hemp], fun M hM junk dimout nrows res => ⟨by simp [hemp], fun o g hex b hb q hq => ?_⟩⟩
    have hd : ∀ a b, dirs tangents a b = 0 := fun a b => by
      unfold dirs
      split
      · rename_i δ hδ
        have ha : a < sigs.length := by
          have := (List.getElem?_eq_some_iff.mp hδ).1
          omega
        have := mem_jvpCalls (List.getElem?_eq_getElem ha) hδ
        rw [hemp] at this
        cases this
      · rfl
    have hst : ∀ τ, movedAll args (dirs tangents) τ = args := fun τ => by
      funext a b
      simp [movedAll, hd]
    simp only [hemp, List.map_nil, hst]
    exact ⟨rfl, fun k _ => hasDerivAt_const _ _⟩
  · obtain ⟨c0, hc0⟩ := List.exists_mem_of_ne_nil _ hemp
    have hdim : ∀ c ∈ jvpCalls sigs tangents, (ps c).dim = 1 + ω.dim := fun c hc =>
      (hval (hp1 c hc) (hp2 c hc) fun _ _ => 0).dim
    have hself : ∀ c ∈ jvpCalls sigs tangents, (c.1, dirs tangents c.1.ind.toNat) = c := fun c hc => by
      obtain ⟨a, a1, a2⟩ := jvpCalls_mem hc
      rw [ho a _ a1, Int.toNat_natCast]
      refine Prod.ext rfl ?_
      funext k
      simp [dirs, a2]
    have hcore := jvp_core_batch (p := ps c0) (rs := rs) (tangents := tangents) (tagI := tagI) ho hlen
      (fun v hv => (hs v hv).1) hL (fun v hv => hsub _ (List.mem_map.mpr ⟨v, hv, rfl⟩)) hη hcount hcsL
      (hpiece (hp1 c0 hc0) (hp2 c0 hc0)) (ps := fun v => ps (v, dirs tangents v.ind.toNat)) (fun res c hc => by
        simp only [hself c hc]
        exact ⟨hpiece (hp1 c hc) (hp2 c hc) res, (hdim c hc).trans (hdim c0 hc0).symm, fun env k _ => by
          rw [(hval (hp1 c hc) (hp2 c hc) env).val, (hval (hp1 c0 hc0) (hp2 c0 hc0) env).val]⟩) hm hn ht (fun c hc => by
        simp only [hself c hc]
        exact hp3 c hc) hb sch
    rw [hdim c0 hc0] at hcore
    obtain ⟨S, hS, hd, hrun⟩ := hcore
    refine ⟨S, hS, hd, fun M hM junk dimout nrows res => ?_⟩
    obtain ⟨hex, hrun⟩ := hrun M hM junk dimout nrows res
    refine ⟨hex, fun o g hg b hb q hq => ?_⟩
    have hder := hrun o g hg b hb q hq
    have hrow : ∀ τ, ∀ s < redRows tagI m n, readBatch L sg
        (movedAll (gradArgs sigs.length args (fun _ => 0) res) (dirs tangents) τ) b (pairAt tagI q s) u 0 =
          res (Spec.pos os (b ++ [q, 0])) := fun τ s hs' => by
      obtain ⟨p1, p2⟩ := pairAt_lt hq hs'
      have := readBatch_at (args := movedAll (gradArgs sigs.length args (fun _ => 0) res) (dirs tangents) τ) hL hul hb hbb hgu
        p1 p2 0
      rw [if_pos (show 0 < 1 + ω.dim by omega)] at this
      refine this.trans ?_
      have e1 : u.toNat = sigs.length + 1 := Int.toNat_natCast _
      have e2 : rowAt (tagI : Int) (pairAt tagI q s) = q := rowAt_pair (by omega) q s
      have e3 : ∀ x, dirs tangents (sigs.length + 1) x = 0 := fun x => by
        unfold dirs
        rw [List.getElem?_eq_none (by omega)]
      have e4 : blockRows m n ((tagI : Int)).toNat = outRows tagI m n := by
        obtain rfl | rfl : tagI = 0 ∨ tagI = 1 := by omega
        · simp [blockRows, outRows]
        · simp [blockRows, outRows]
      simp only [e1, e2, e4, movedAll, e3, mul_zero, add_zero, gradArgs, clip_self hb]
      rw [if_neg (by omega), if_neg (by omega), hos, pos_row hb, Nat.add_zero]
    refine ⟨?_, fun k hk => ?_⟩
    · refine ((hder 0 (by omega)).unique ((hasDerivAt_const (0 : ℝ) (0 : ℝ)).congr_of_eventuallyEq
        (.of_forall fun τ => ?_)))
      exact sum_eq_zero fun s _ => by rw [(hval (hp1 c0 hc0) (hp2 c0 hc0) _).val, if_pos rfl]
    · refine (hder (1 + k) (by omega)).congr_of_eventuallyEq (.of_forall fun τ => ?_)
      unfold sumRow
      refine sum_congr rfl fun s hs' => ?_
      rw [(hval (hp1 c0 hc0) (hp2 c0 hc0) _).val, if_neg (by omega), hrow τ s (mem_range.mp hs'), Nat.add_sub_cancel_left,
        Expr.val_agree pf.ff (fun y hy => hread res τ b _ y (pf.vars y hy)),
        Expr.val_agree pw.ff (fun y hy => hread res τ b _ y (pw.vars y hy))]

end

end Verif
