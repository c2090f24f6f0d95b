import Verif.Model.FinalChunksRanges
import Verif.Proofs.FinalChunks
import Verif.Proofs.ChunksRanges

/-! The kernel for scalar times vector with ranges gives the same results as the simple one. -/

namespace Verif

open Spec Finset

/-! ## One interval -/

/-- The block loads the rows of `K'`. -/
structure SameLoadsF (K : FinalBlock) (K' : FinalCall) (startY endY : Nat) : Prop where
  e : K'.e = K.F
  F : K'.F = K.F
  b : K'.b = K.b
  tagI : K'.tagI = K.P.tagI
  M : K'.M = K.M
  junk : K'.junk = K.junk
  B : K'.B = K.B
  ny : K'.ny = endY - startY
  lj : ∀ j, K.loadJ startY (startY + j) = loadVars (varsOf K.F.inputs (1 - K.P.tagI)) K'.args j
  cb : ∀ d chunk j, K.chunkB d chunk startY (startY + j) = loadChunks [K.b.ind] d K.b.dim K'.args chunk j

variable {K : FinalBlock} {K' : FinalCall} {startY endY : Nat}

theorem finalRSub_eq (h : SameLoadsF K K' startY endY) (d tile : Nat) (ts : List Nat) (chunk : Nat) (acc : Mem ℝ)
    (m : FinalMem) :
    finalRSub K d startY endY (startY + tile * K.B) ts chunk acc m = finalSub K' d tile (tile * K.B) ts chunk acc m := by
  have hmin : min K.B (endY - (startY + tile * K.B)) = min K.B (endY - startY - tile * K.B) := by omega
  unfold finalRSub finalSub
  simp only [h.b, h.B, h.ny, hmin]
  have hy : ts.foldl (fun yj t => if startY + tile * K.B + t < endY then
      onSlice (t * dimfinalchunk) (K.chunkB d chunk startY (startY + tile * K.B + t)) yj else yj) m.yj =
      ts.foldl (fun yj t => if tile * K.B + t < endY - startY then
        onSlice (t * dimfinalchunk) (loadChunks [K.b.ind] d K.b.dim K'.args chunk (tile * K.B + t)) yj else yj)
        m.yj := by
    refine foldl_congr_mem _ _ fun yj t _ => ?_
    rw [Nat.add_assoc, h.cb]
    by_cases hlt : tile * K.B + t < endY - startY
    · rw [if_pos hlt, if_pos (by omega)]
    · rw [if_neg hlt, if_neg (by omega)]
  rw [hy]

theorem finalRTile_eq (h : SameLoadsF K K' startY endY) (ord : Nat → List Nat) (acc : Nat → Mem ℝ) (xi pp : Mem ℝ)
    (tile : Nat) (m : FinalMem) :
    finalRTile K ord acc xi pp startY endY (startY + tile * K.B) m =
      finalTile K' ord acc xi pp (tile * K.B) tile m := by
  have hmin : min K.B (endY - (startY + tile * K.B)) = min K.B (endY - startY - tile * K.B) := by omega
  have hn : K'.nchunks = K.nchunks := by unfold FinalCall.nchunks FinalBlock.nchunks; rw [h.b]
  have hl : K'.dimLast = K.dimLast := by unfold FinalCall.dimLast FinalBlock.dimLast; rw [h.b, hn]
  have ht : ∀ xi yj pp, K'.table xi yj pp = K.table xi yj pp := fun xi yj pp => by
    unfold FinalCall.table FinalBlock.table FinalBlock.vars; rw [h.e, h.tagI]
  unfold finalRTile finalTile
  simp only [finalRSub_eq h, FinalCall.vars, FinalBlock.vars, h.F, h.tagI, h.M, h.junk, h.B, h.ny, hmin, hn, hl, ht]
  have hy : (ord 0).foldl (fun yj t => if startY + tile * K.B + t < endY then
      onSlice (t * sumDims (varsOf K.F.inputs (1 - K.P.tagI))) (K.loadJ startY (startY + tile * K.B + t)) yj else yj)
      m.yj = (ord 0).foldl (fun yj t => if tile * K.B + t < endY - startY then
        onSlice (t * sumDims (varsOf K.F.inputs (1 - K.P.tagI)))
          (loadVars (varsOf K.F.inputs (1 - K.P.tagI)) K'.args (tile * K.B + t)) yj else yj) m.yj := by
    refine foldl_congr_mem _ _ fun yj t _ => ?_
    rw [Nat.add_assoc, h.lj]
    by_cases hlt : tile * K.B + t < endY - startY
    · rw [if_pos hlt, if_pos (by omega)]
    · rw [if_neg hlt, if_neg (by omega)]
  rw [hy]

theorem finalRTiles_eq (h : SameLoadsF K K' startY endY) (ord : Nat → Nat → List Nat) (acc : Nat → Nat → Mem ℝ)
    (xi pp : Mem ℝ) : ∀ fuel tile (m : FinalMem),
    finalRTiles K ord acc xi pp startY endY fuel (startY + tile * K.B) tile m =
      finalTiles K' ord acc xi pp fuel (tile * K.B) tile m := by
  intro fuel
  induction fuel with
  | zero => intro _ _; rfl
  | succ fuel ih =>
    intro tile m
    unfold finalRTiles finalTiles
    rw [h.ny, h.B]
    by_cases hlt : tile * K.B < endY - startY
    · rw [if_pos hlt, if_pos (by omega), finalRTile_eq h,
        show startY + tile * K.B + K.B = startY + (tile + 1) * K.B by rw [Nat.succ_mul]; omega,
        show tile * K.B + K.B = (tile + 1) * K.B by rw [Nat.succ_mul]]
      exact ih _ _
    · rw [if_neg hlt, if_neg (by omega)]

/-- The simple kernel adds the terms of the interval. -/
theorem absTiles_sum (d : Nat) (F : Nat → Mem ℝ) {B : Nat} (hB : 0 < B) (ny : Nat) :
    ∀ fuel tile (s : Mem ℝ × Mem ℝ), ny ≤ tile * B + fuel → ∀ p < d,
      (absTiles (directScheme (sumRed d)) F B ny fuel (tile * B) tile s).1 p =
        s.1 p + ∑ j ∈ Ico (tile * B) ny, F j p := by
  have hone : ∀ k a (s : Mem ℝ × Mem ℝ), ∀ p < d, (forRange k (fun jrel s =>
      (directScheme (sumRed d)).accum s (F (a * B + jrel)) (jrel + a * B)) s).1 p =
        s.1 p + ∑ t ∈ range k, F (a * B + t) p := by
    intro k a s p hp
    induction k with
    | zero => simp
    | succ k ih =>
      rw [forRange_succ, sum_range_succ, ← add_assoc, ← ih]
      simp only [directScheme, sumRed, vectApply_apply, if_pos hp]
  intro fuel
  induction fuel with
  | zero =>
    intro tile s hf p _
    rw [Ico_eq_empty (by omega), sum_empty, add_zero]
    rfl
  | succ fuel ih =>
    intro tile s hf p hp
    unfold absTiles
    by_cases hlt : tile * B < ny
    · rw [if_pos hlt, show tile * B + B = (tile + 1) * B by rw [Nat.succ_mul],
        ih _ _ (by rw [Nat.succ_mul]; omega) p hp, Nat.succ_mul, ← sum_tile (fun j => F j p) _ _ _ hlt, ← add_assoc]
      congr 1
      exact hone _ _ (s.1, _) p hp
    · rw [if_neg hlt, Ico_eq_empty (by omega), sum_empty, add_zero]

/-! ## A thread -/

section

variable {e F : Expr} {b : VarInfo} {M : CMath} {cjunk : Expr → Nat → ℝ} {P : RProblem ℝ} {B r startX t : Nat}

theorem finalI_eq (hP : WfRProblem P) (hb : BatchLike P) (hr : r < P.ax.nranges)
    (hF : ∀ v ∈ F.inputs, v ∈ P.vars) (hst : P.ax.rangesX (2 * r) ≤ startX) :
    (⟨F, b, M, cjunk, P, B, P.blockOffs r startX, startX, t⟩ : FinalBlock).loadI =
      loadVars (varsOf F.inputs P.tagI) (P.view r) (P.locI r (startX + t)) := by
  have ht := hP.tag
  unfold FinalBlock.loadI RProblem.blockOffs
  dsimp only
  by_cases hnb : P.sizes.nbatchdims = 0
  · rw [offs_none hnb, view_zero hnb, RProblem.locI, if_pos hnb]
    rfl
  · rw [offs_some hnb]
    refine loadVarsRef_eq fun v hv' w => ?_
    obtain ⟨h1, h2⟩ := mem_varsOf.mp hv'
    exact offs_at hP hnb hr (fun n v hv l hl => shapesI_line ht hv hl)
      (fun v hv => by rw [start_cat ht hv, if_neg (by omega), if_pos rfl]; rfl) (row_add hb hnb hr hst) (hF v h1) h2 w

/-- Parameters are read without offsets. -/
theorem finalP_eq (hP : WfRProblem P) (hF : ∀ v ∈ F.inputs, v ∈ P.vars)
    (hpar : P.sizes.nbatchdims = 0 ∨ ∀ v ∈ F.inputs, v.cat = 2 → P.rowOff r v = 0) :
    (⟨F, b, M, cjunk, P, B, P.blockOffs r startX, startX, t⟩ : FinalBlock).loadP =
      loadVars (varsOf F.inputs 2) (P.view r) 0 := by
  unfold FinalBlock.loadP FinalBlock.vars
  refine loadVars_congr fun v hv w => ?_
  obtain ⟨h1, h2⟩ := mem_varsOf.mp hv
  by_cases hnb : P.sizes.nbatchdims = 0
  · rw [view_zero hnb]
  · rcases hpar with h | h
    · exact absurd h hnb
    · rw [view_apply hP.vars hnb (hF v h1), h v h1 h2]
      simp only [Nat.zero_mul, Nat.zero_add]

theorem sameLoadsF (hP : WfRProblem P) (hr : r < P.ax.nranges) (hF : ∀ v ∈ F.inputs, v ∈ P.vars)
    (hbm : b ∈ P.vars) (hbc : b.cat = 1 - P.tagI) (startY endY : Nat) :
    SameLoadsF ⟨F, b, M, cjunk, P, B, P.blockOffs r startX, startX, t⟩
      ⟨F, F, b, P.tagI, M, cjunk, P.seen r startY, B, endY - startY⟩ startY endY := by
  have ht := hP.tag
  have hor : ∀ D chunk w row : Nat, row * D + chunk * dimchunk + w = row * D + (chunk * dimchunk + w) :=
    fun _ _ _ _ => Nat.add_assoc _ _ _
  have hoi : ∀ (x : Int) (D chunk w : Nat), x * (D : Int) + (chunk : Int) * (dimchunk : Int) + (w : Int) =
      x * (D : Int) + ((chunk * dimchunk + w : Nat) : Int) := fun x D chunk w => by push_cast; ring
  refine ⟨rfl, rfl, rfl, rfl, rfl, rfl, rfl, rfl, fun j => ?_, fun d chunk j => ?_⟩
  · unfold FinalBlock.loadJ RProblem.blockOffs FinalBlock.vars
    dsimp only
    by_cases hnb : P.sizes.nbatchdims = 0
    · rw [offs_none hnb]
      refine loadVars_congr fun v hv' w => ?_
      obtain ⟨h1, h2⟩ := mem_varsOf.mp hv'
      rw [seen_j hP.vars (hF v h1) h2, view_zero hnb, RProblem.rowJ, if_pos hnb]
    · rw [offs_some hnb]
      refine loadVarsRef_eq fun v hv' w => ?_
      obtain ⟨h1, h2⟩ := mem_varsOf.mp hv'
      rw [seen_j hP.vars (hF v h1) h2, RProblem.rowJ, if_neg hnb]
      exact offs_at hP hnb hr (fun n v hv l hl => shapesJ_line ht hv hl)
        (fun v hv => by rw [start_cat ht hv, if_neg (by omega), if_neg (by omega)]; rfl) (by simp) (hF v h1) h2 w
  · unfold FinalBlock.chunkB RProblem.blockOffs
    dsimp only
    by_cases hnb : P.sizes.nbatchdims = 0
    · rw [offs_none hnb]
      refine loadChunks_congr fun v hv' w => ?_
      obtain rfl := List.mem_singleton.mp hv'
      rw [hor, hor, seen_j hP.vars hbm hbc, view_zero hnb, RProblem.rowJ, if_pos hnb]
    · rw [offs_some hnb]
      refine loadChunksOff_eq fun v hv' w => ?_
      obtain rfl := List.mem_singleton.mp hv'
      rw [hor, hoi, seen_j hP.vars hbm hbc, RProblem.rowJ, if_neg hnb]
      exact offs_at hP hnb hr (fun n v hv l hl => shapesJ_line ht hv hl)
        (fun v hv => by rw [start_cat ht hv, if_neg (by omega), if_neg (by omega)]; rfl) (by simp) hbm hbc _

theorem holds_congr {vs : List VarInfo} {args args' : Nat → Mem ℝ} {row : Nat} {x : Mem ℝ}
    (h : ∀ v ∈ vs, ∀ p, args v.ind p = args' v.ind p) (hx : Holds vs args row x) : Holds vs args' row x := by
  intro pre v post hs w hw
  rw [← h v (by rw [hs]; simp)]
  exact hx pre v post hs w hw

/-- A thread of the kernel computes what the same thread of the simple kernel computes. -/
theorem finalRThread_view {m n : Nat} {args : Nat → Mem ℝ} {env : Nat → Env}
    (hM : M.Exact) (hw : e.WF) (hf : e.FactFree) (hwF : F.WF) (hfF : F.FactFree) (hin : e.InputVars)
    (hsub : ∀ v ∈ F.vars, v ∈ e.vars) (hdim : F.dim = 1) (hP : WfRProblem P) (hb : BatchLike P) (hr : r < P.ax.nranges)
    (hev : P.ev = (e.call id id M cjunk P.tagI m n args).ev) (hv : P.vars = e.inputs)
    (hbm : b ∈ P.vars) (hbc : b.cat = 1 - P.tagI) (hbd : 0 < b.dim) (hed : e.dim = b.dim)
    (hst : P.ax.rangesX (2 * r) ≤ startX) (hB : 0 < B)
    (hpar : P.sizes.nbatchdims = 0 ∨ ∀ v ∈ F.inputs, v.cat = 2 → P.rowOff r v = 0)
    {ny : Nat} (hny : ∀ sl, P.ax.startSlice r ≤ sl → sl < P.ax.endSlice r →
      P.ax.rangesY (2 * sl + 1) - (if P.sizes.nbatchdims = 0 then 0 else P.ax.rangesY (2 * sl)) ≤ ny)
    (henv : ∀ j < ny, e.Def (env j) ∧ F.Def (env j) ∧
      EnvReads id e P.tagI (P.view r) (P.locI r (startX + t)) j (env j) ∧
      ∀ k < b.dim, e.val (env j) k = P.view r b.ind (j * b.dim + k) * F.val (env j) 0)
    {ord : Nat → Nat → Nat → List Nat} (hord : ∀ index tile ph, (ord index tile ph).Perm (List.range B))
    (junk : Nat → Mem ℝ) (acc : Nat → Nat → Nat → Mem ℝ) (endX : Nat) (o : Mem ℝ) :
    finalRThread F b M cjunk P B (r, startX, endX) t ord junk acc o =
      gpuRangesThread (sumRed b.dim) (directScheme (sumRed b.dim)) P B (r, startX, endX) t
        (fun index tile => ord index tile 0) junk o := by
  have ht := hP.tag
  have hFi : ∀ v ∈ F.inputs, v ∈ P.vars := fun v hv' => by
    obtain ⟨u, h1, h2, rfl⟩ := Expr.mem_inputs.mp hv'
    rw [hv]; exact Expr.mem_inputs.mpr ⟨u, hsub u h1, h2, rfl⟩
  have hgF : GoodVars F.vars := ⟨fun v hv _ => hin.pos v (hsub v hv), fun v hv => by have := hin.cat v (hsub v hv); omega,
    fun u hu v hv _ _ => hin.unique u (hsub u hu) v (hsub v hv)⟩
  rw [gpuRangesThread_view hP hb hr hst]
  unfold finalRThread
  dsimp only
  rw [finalI_eq hP hb hr hFi hst, finalP_eq hP hFi hpar]
  set xi := loadVars (varsOf F.inputs P.tagI) (P.view r) (P.locI r (startX + t)) (junk 1) with hxi
  set pp := loadVars (varsOf F.inputs 2) (P.view r) 0 (junk 0) with hpp
  have hz : ∀ p, forRange b.dim (fun k out => out.set k 0) o p = if p < b.dim then 0 else o p := by
    intro p
    have := forRange_set b.dim (fun _ _ => (0 : ℝ)) o p
    simpa only [Nat.mul_one] using this
  unfold finalRSlices gpuRSlices
  have key := forStride_rel (Q := fun k (a : Nat × FinalMem) (s : Nat × (Mem ℝ × (Mem ℝ × Mem ℝ))) =>
    a.1 = s.1 ∧ (∀ p, a.2.out p = if p < b.dim then s.2.2.1 p else o p) ∧
      (k = 0 → a.1 = P.ax.rangesY (2 * P.ax.startSlice r))) (P.ax.startSlice r) 1 (P.ax.endSlice r - P.ax.startSlice r)
    (fun index st =>
      if index + 1 ≥ P.ax.endSlice r ∨ P.ax.rangesY (2 * index + 2) ≠ P.ax.rangesY (2 * index + 1) then
        (if index + 1 < P.ax.endSlice r then P.ax.rangesY (2 * index + 2) else st.1,
          finalRTiles ⟨F, b, M, cjunk, P, B, P.blockOffs r startX, startX, t⟩ (ord index) (acc index) xi pp st.1
            (P.ax.rangesY (2 * index + 1)) (P.ax.rangesY (2 * index + 1) - st.1) st.1 0 st.2)
      else st)
    (fun index st =>
      if index + 1 ≥ P.ax.endSlice r ∨ P.ax.rangesY (2 * index + 2) ≠ P.ax.rangesY (2 * index + 1) then
        (if index + 1 < P.ax.endSlice r then P.ax.rangesY (2 * index + 2) else st.1,
          gpuRTiles (directScheme (sumRed b.dim)) (fun j => loadVars P.varsJ (P.view r) (P.locJ st.1 j))
            (fun yjrel => P.ev (table P.vars P.tagI (loadVars P.varsI (P.view r) (P.locI r (startX + t)) (junk 0)) yjrel
              (loadVars P.varsP (P.view r) 0 (junk 2)))) (sumDims P.varsJ) B (P.ax.rangesY (2 * index + 1))
            (if P.sizes.nbatchdims = 0 then st.1 else 0) (fun tile => ord index tile 0)
            (P.ax.rangesY (2 * index + 1) - st.1) st.1 0 st.2.1 st.2.2)
      else st)
    (P.ax.rangesY (2 * P.ax.startSlice r), (⟨junk 2, junk 3, forRange b.dim (fun k out => out.set k 0) o⟩ : FinalMem))
    (P.ax.rangesY (2 * P.ax.startSlice r), (junk 1, ((sumRed b.dim).init (junk 3),
      (directScheme (sumRed b.dim)).firstInit (junk 4)))) ⟨rfl, fun p => ?_, fun _ => rfl⟩ ?_
  · funext p
    have h2 := key.2.1 p
    refine h2.trans ?_
    show _ = vectCopy b.dim o _ p
    rw [vectCopy_apply]
  · dsimp only
    rw [hz]
    by_cases hp : p < b.dim
    · rw [if_pos hp, if_pos hp]; simp only [sumRed, vectFill_apply, if_pos hp]
    · rw [if_neg hp, if_neg hp]
  · rintro k ⟨sy, mm⟩ ⟨sy', yj, s⟩ hk ⟨h1, h2, h5⟩
    dsimp only at h1 h2 h5
    subst h1
    rw [Nat.mul_one]
    dsimp only
    split
    · next hcond =>
      set endY := P.ax.rangesY (2 * (P.ax.startSlice r + k) + 1) with hendY
      have hbound : ∀ j, j < endY - sy → P.rowJ sy j < ny := by
        intro j hj
        have hn := hny (P.ax.startSlice r + k) (by omega) (by omega)
        unfold RProblem.rowJ
        by_cases hnb : P.sizes.nbatchdims = 0
        · rw [if_pos hnb] at hn ⊢; omega
        · rw [if_neg hnb] at hn ⊢
          obtain ⟨e1, e2⟩ := hb.slice hnb r hr
          have hk0 : k = 0 := by omega
          have := h5 hk0
          rw [hk0] at hn hendY
          simp only [Nat.add_zero] at hn hendY
          rw [hendY] at hj
          omega
      refine ⟨rfl, fun p => ?_, fun h => absurd h (by omega)⟩
      -- the kernel
      have A1 := finalRTiles_eq (sameLoadsF (M := M) (cjunk := cjunk) (B := B) (t := t) (startX := startX) hP hr hFi hbm
        hbc sy endY) (ord (P.ax.startSlice r + k)) (acc (P.ax.startSlice r + k)) xi pp (endY - sy) 0 mm
      simp only [Nat.zero_mul, Nat.add_zero] at A1
      have hval : FinalCall.Value ⟨F, F, b, P.tagI, M, cjunk, P.seen r sy, B, endY - sy⟩ xi pp
          (fun j => F.val (env (P.rowJ sy j)) 0) := by
        intro j hj y hy
        obtain ⟨-, hd, hrd, -⟩ := henv _ (hbound j hj)
        have hx' : Holds (varsOf F.inputs P.tagI) (P.seen r sy) (P.locI r (startX + t)) xi := by
          refine holds_congr (args := P.view r) (fun v hv' p => ?_) (holds_of_eq_loadVars fun _ _ => rfl)
          obtain ⟨a1, a2⟩ := mem_varsOf.mp hv'
          exact (seen_other hP.vars (hFi v a1) (by omega) p).symm
        have hp' : Holds (varsOf F.inputs 2) (P.seen r sy) 0 pp := by
          refine holds_congr (args := P.view r) (fun v hv' p => ?_) (holds_of_eq_loadVars fun _ _ => rfl)
          obtain ⟨a1, a2⟩ := mem_varsOf.mp hv'
          exact (seen_other hP.vars (hFi v a1) (by omega) p).symm
        have hrs := envReads_seen hP hin hv hrd
        refine (runCode_ok hM hwF hfF hd ?_ 0).trans (by simp [vec, hdim])
        intro v hv'
        exact final_table (e := F) (b := v) hgF (fun u => ⟨.inl, fun h => h.elim id fun h => h ▸ Expr.free_vars hv'⟩)
          ht (fun _ => .inl (Expr.free_vars hv')) hx' hy hp'
          (fun u hu => by have := hin.cat u (hsub u (Expr.free_vars hu)); omega)
          (fun u hu q hq => hrs u (hsub u (Expr.free_vars hu)) q hq) v hv'
      have A2 := finalTiles_spec hval hbd hB (hord (P.ax.startSlice r + k)) (acc (P.ax.startSlice r + k)) (endY - sy) 0
        (by show endY - sy ≤ _; omega) mm p
      simp only [Nat.zero_mul] at A2
      -- the simple kernel
      have A3 := gpuRTiles_abs (directScheme (sumRed b.dim)) (fun j => loadVars P.varsJ (P.view r) (P.locJ sy j))
        (fun yjrel => P.ev (table P.vars P.tagI (loadVars P.varsI (P.view r) (P.locI r (startX + t)) (junk 0)) yjrel
          (loadVars P.varsP (P.view r) 0 (junk 2))))
        (chunkF id e fun j => env (P.rowJ sy j)) (sumDims P.varsJ) (B := B) (startY := sy) (endY := endY)
        (base := if P.sizes.nbatchdims = 0 then sy else 0) (.inr fun _ _ _ _ => rfl)
        (fun j => loadVars_rowLocal _ _ _)
        (fun j hj y hy => by
          have hj' := henv _ (hbound j (by omega))
          have hloc : P.locJ sy (sy + j) = P.rowJ sy j := by
            unfold RProblem.locJ RProblem.rowJ
            rw [Nat.add_sub_cancel_left]
          simp only [hloc] at hy
          rw [hev, hv]
          have := call_chunkF (enc := id) (dec := id) (junk := cjunk) (m := m) (n := n) hM hf hw hin ht hj'.1 hj'.2.2.1
            (table_spec (hv ▸ hP.vars) ht (P.view r) (P.locI r (startX + t)) (P.rowJ sy j)
              (loadVars P.varsI (P.view r) (P.locI r (startX + t)) (junk 0)) y
              (loadVars P.varsP (P.view r) 0 (junk 2))
              (by rw [← hv]; exact holds_of_eq_loadVars fun _ _ => rfl)
              (by rw [← hv]; exact holds_of_eq_loadVars (hy o))
              (by rw [← hv]; exact holds_of_eq_loadVars fun _ _ => rfl))
          exact this)
        (fun tile => ord (P.ax.startSlice r + k) tile 0)
        (fun tile => ⟨(hord _ tile 0).nodup_iff.mpr List.nodup_range,
          fun t ht => (hord _ tile 0).mem_iff.mpr (List.mem_range.mpr ht)⟩) (endY - sy) 0 yj s
      simp only [Nat.zero_mul, Nat.add_zero] at A3
      dsimp only
      rw [A1, A2, A3, h2]
      by_cases hp : p < b.dim
      · have A4 := absTiles_sum b.dim (chunkF id e fun j => env (P.rowJ sy j)) hB (endY - sy) (endY - sy) 0 s (by omega)
          p hp
        rw [Nat.zero_mul] at A4
        rw [if_pos hp, if_pos hp, if_pos hp, A4]
        congr 1
        refine sum_congr rfl fun j hj => ?_
        have hj := (Finset.mem_Ico.mp hj).2
        rw [FinalCall.brow]
        show P.seen r sy b.ind (j * b.dim + p) * _ = id ((vec e.dim _).getD p 0)
        rw [seen_j hP.vars hbm hbc, ← (henv _ (hbound j hj)).2.2.2 p hp]
        simp [vec, hed, hp]
      · rw [if_neg hp, if_neg hp, if_neg hp]
    · exact ⟨rfl, h2, fun h => absurd h (by omega)⟩

/-- Every execution of the kernel is an execution of the simple one. -/
theorem finalR_exec {m n : Nat} {args : Nat → Mem ℝ} {env : Nat → Nat → Nat → Env} {ny : Nat → Nat} {out out' : Mem ℝ}
    (hparts : finalParts e = some (F, b)) (hM : M.Exact) (hw : e.WF) (hf : e.FactFree) (hwF : F.WF) (hfF : F.FactFree)
    (hin : e.InputVars) (hsub : ∀ v ∈ F.vars, v ∈ e.vars) (hdim : F.dim = 1) (hP : WfRProblem P) (hb : BatchLike P)
    (hev : P.ev = (e.call id id M cjunk P.tagI m n args).ev) (hv : P.vars = e.inputs)
    (hbm : b ∈ P.vars) (hbc : b.cat = 1 - P.tagI) (hbd : 0 < b.dim) (hed : e.dim = b.dim)
    (hpar : P.sizes.nbatchdims = 0 ∨ ∀ r < P.ax.nranges, ∀ v ∈ F.inputs, v.cat = 2 → P.rowOff r v = 0)
    (hny : ∀ r < P.ax.nranges, ∀ sl, P.ax.startSlice r ≤ sl → sl < P.ax.endSlice r →
      P.ax.rangesY (2 * sl + 1) - (if P.sizes.nbatchdims = 0 then 0 else P.ax.rangesY (2 * sl)) ≤ ny r)
    (henv : ∀ r < P.ax.nranges, ∀ i, P.ax.rangesX (2 * r) ≤ i → i < P.ax.rangesX (2 * r + 1) → ∀ j < ny r,
      e.Def (env r i j) ∧ F.Def (env r i j) ∧ EnvReads id e P.tagI (P.view r) (P.locI r i) j (env r i j) ∧
      ∀ k < b.dim, e.val (env r i j) k = P.view r b.ind (j * b.dim + k) * F.val (env r i j) 0)
    (h : ExecFinalR M cjunk e P out out') : RExec (sumRed b.dim) (directScheme (sumRed b.dim)) P out out' := by
  obtain ⟨F', b', hparts', -, B, hB, ord, hord, junk, acc, sched, hsched⟩ := h
  obtain ⟨rfl, rfl⟩ : F = F' ∧ b = b' := by
    rw [hparts] at hparts'
    exact Prod.mk.inj (Option.some.inj hparts')
  have heq : gpuFinalR F b M cjunk P B ord junk acc sched out =
      gpuRanges (sumRed b.dim) (directScheme (sumRed b.dim)) P B (fun b index tile => ord b index tile 0) junk sched
        out := by
    unfold gpuFinalR gpuRanges
    refine foldl_congr_mem _ _ fun o bt _ => ?_
    dsimp only
    cases hblk : (lookupTable B P.ax.nranges P.ax.rangesX)[bt.1]? with
    | none => rfl
    | some blk =>
      dsimp only
      split
      · next hi =>
        show onSlice (_ * b.dim) _ o = onSlice (_ * b.dim) _ o
        congr 1
        funext o
        obtain ⟨r, hr, t, ht', rfl⟩ := (lookupTable_mem hB _ blk).mp (List.mem_of_getElem? hblk)
        dsimp only at hi ⊢
        exact finalRThread_view hM hw hf hwF hfF hin hsub hdim hP hb hr hev hv hbm hbc hbd hed (by omega) hB
          (hpar.imp_right fun h => h r hr) (hny r hr) (henv r hr _ (by omega) (by omega)) (hord bt.1) _ _ _ o
      · rfl
  rw [heq]
  exact RExec.gpu B hB (fun b index tile => ord b index tile 0) (fun b index tile => hord b index tile 0) _ sched hsched

end

end Verif
