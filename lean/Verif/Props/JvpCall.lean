import Verif.Proofs.JvpCall
import Verif.Props.BackwardCall

/-!
# C66: forward-mode differentiation, from the arrays of the call to the array of the derivatives
-/

namespace Verif

open Finset Spec Filter Topology

/-- A call for which forward-mode derivatives are asked for: an expression `t`, the formula `e` that is run for it, the
declarations `sigs` of the arguments, in the order of the arguments, and arrays at which the formula is differentiable. -/
structure JvpSetting (t : Term) (e : Expr) (sigs : List VarId) (tagI m n : Nat) (args : Nat → Nat → ℝ) : Prop where
  pos : t.Pos
  compiled : ∃ N, t.compile N = .ok e
  tag : tagI < 2
  rows : 0 < m ∧ 0 < n
  order : ∀ (a : Nat) (v : VarId), sigs[a]? = some v → v.ind = a
  sig : ∀ v ∈ sigs, 0 < v.dim ∧ (v.cat = 0 ∨ v.cat = 1 ∨ v.cat = 2)
  vars : ∀ u ∈ t.vars, u ∈ declared sigs
  plain : e.NoBroadcast
  smooth : ∀ i < m, ∀ j < n, e.Smooth (readEnv (declared sigs) args (i, j))

/-- The formula of a setting. -/
theorem piece_of {t : Term} {e : Expr} {l : List (Int × Nat × Int)} {m n : Nat} {args : Nat → Nat → ℝ} (hp : t.Pos)
    (hc : ∃ N, t.compile N = .ok e) (hv : ∀ u ∈ t.vars, u ∈ l) (hn : e.NoBroadcast)
    (hs : ∀ i < m, ∀ j < n, e.Smooth (readEnv l args (i, j))) : Piece l m n args e := by
  obtain ⟨N, hc⟩ := hc
  obtain ⟨hff, hvars⟩ := compile_vars hp hc
  exact ⟨(compile_rep hp hc).wf, hff, fun u hu => hv u (hvars u hu), hn, hs⟩

theorem gradArgs_read {sigs : List VarId} (ho : ∀ (a : Nat) (v : VarId), sigs[a]? = some v → v.ind = a)
    (hs : ∀ v ∈ sigs, 0 < v.dim ∧ (v.cat = 0 ∨ v.cat = 1 ∨ v.cat = 2)) (args δ : Nat → Nat → ℝ) (G res : Nat → ℝ)
    (τ : ℝ) (p : Nat × Nat) : readEnv (declared sigs) (movedAll (gradArgs sigs.length args G res) δ τ) p =
      readEnv (declared sigs) (movedAll args δ τ) p :=
  readEnv_congr (fun u hu => by
    have := (declared_plain ho hs).2 u hu
    funext k
    simp [movedAll, gradArgs, this]) p

/-- **C66**, sums: all the arguments move, each in the direction of its tangent (those without tangent do not move).  The
array returned by the forward mode, which is the sum of the outputs `g v` of one kernel for each argument `v` with a
tangent, is the derivative of every entry of the output of the call.

Missing: batch dimensions; the restrictions of C05 on the formula. -/
theorem C66_sum_partial {t : Term} {e : Expr} {sigs : List VarId} {tagI m n : Nat} {args : Nat → Nat → ℝ}
    (h : JvpSetting t e sigs tagI m n args) (tangents : List (Option (Mem ℝ))) (hlen : tangents.length = sigs.length)
    (result : Nat → ℝ) (rs : VarId → Expr)
    (hr : ∀ c ∈ jvpCalls sigs tangents, RedDiffs (.sum e tagI) c.1 (tangentVar sigs.length c.1)
      (resVar sigs.length e.dim tagI) (.sum (rs c.1) tagI)) (sch schd : SumScheme) :
    ∃ S Sd, getScheme (sumRed (V := ℝ) e.dim) sch = some S ∧ getScheme (sumRed (V := ℝ) e.dim) schd = some Sd ∧
      (∀ c ∈ jvpCalls sigs tangents, (rs c.1).dim = e.dim) ∧
      ∀ M : CMath, M.Exact → ∀ junk (o g : VarId → Mem ℝ),
        (∀ c ∈ jvpCalls sigs tangents, Exec (sumRed e.dim) Sd
          ((rs c.1).call id id M junk tagI m n (gradArgs sigs.length args c.2 result)) (o c.1) (g c.1)) →
        ∀ out₀ out : ℝ → Mem ℝ,
          (∀ τ, Exec (sumRed e.dim) S (e.call id id M junk tagI m n (movedAll args (dirs tangents) τ)) (out₀ τ) (out τ)) →
          ∀ i < outRows tagI m n, ∀ k < e.dim,
            HasDerivAt (fun τ => out τ (i * e.dim + k))
              (jvpOut ((jvpCalls sigs tangents).map fun c => g c.1) (i * e.dim + k)) 0 := by
  have P := piece_of h.pos h.compiled h.vars h.plain h.smooth
  obtain ⟨hl, hlt⟩ := declared_plain h.order h.sig
  have hη : ∀ u ∈ declared sigs, u.1 ≠ sigs.length := fun u hu => by
    have := hlt u hu
    have := hl.pos u hu
    omega
  have h0 : ∀ A : Nat → Nat → ℝ, movedAll A (dirs tangents) 0 = A := fun A => by funext a k; simp [movedAll]
  have P' : Piece (declared sigs) m n (gradArgs sigs.length args (fun _ => 0) result) e :=
    ⟨P.wf, P.ff, P.vars, P.plain, fun i hi j hj => by
      have := gradArgs_read h.order h.sig args (dirs tangents) (fun _ => 0) result 0 (i, j)
      rw [h0, h0] at this
      rw [this]
      exact P.smooth i hi j hj⟩
  obtain ⟨S, hS, -⟩ := C09_sum ℝ e.dim sch
  obtain ⟨Sd, hSd, hdim, hrun⟩ := jvp_core (ps := fun _ => e) (rs := rs) h.order hlen (fun v hv => (h.sig v hv).1) hl
    (fun v hv => List.mem_map.mpr ⟨v, hv, rfl⟩) hη P'
    (fun _ _ => ⟨P', rfl, fun _ _ _ => rfl⟩) h.rows.1 h.rows.2 h.tag (fun c hc => by
      obtain ⟨N, h1⟩ := hr c hc
      simp only [RedExpr.diff] at h1
      obtain ⟨r', h2, h3⟩ := bind_ok' h1
      cases h3
      exact ⟨N, h2⟩) schd
  refine ⟨S, Sd, hS, hSd, hdim, fun M hM junk o g hex out₀ out hout i hi k hk => ?_⟩
  refine (hrun M hM junk o g hex i hi k hk).congr_of_eventuallyEq ?_
  filter_upwards [P.near (dirs tangents)] with τ hτ
  obtain ⟨S', hS', hfwd⟩ := sum_exec hl P.wf P.ff P.vars h.tag hτ sch
  rw [hS] at hS'
  cases hS'
  rw [hfwd M hM junk _ _ (hout τ) i hi k hk]
  unfold sumRow
  exact sum_congr rfl fun s _ => by rw [gradArgs_read h.order h.sig]

/-! ## The hypotheses can be met -/

/-- The declarations of the Gaussian convolution, in the order of its arguments. -/
abbrev jvpSigs : List VarId := [⟨0, 3, 0⟩, ⟨1, 3, 1⟩, ⟨2, 2, 1⟩]

theorem jvpSigs_order : ∀ (a : Nat) (v : VarId), jvpSigs[a]? = some v → v.ind = a := by
  rintro (_ | _ | _ | a) v h <;> simp at h <;> subst h <;> rfl

theorem jvpSigs_sig : ∀ v ∈ jvpSigs, 0 < v.dim ∧ (v.cat = 0 ∨ v.cat = 1 ∨ v.cat = 2) := by decide

theorem gauss_jvp (m n : Nat) (hm : 0 < m) (hn : 0 < n) (args : Nat → Nat → ℝ) :
    JvpSetting gauss gaussE jvpSigs 0 m n args where
  pos := gauss_pos
  compiled := ⟨20, rfl⟩
  tag := by omega
  rows := ⟨hm, hn⟩
  order := jvpSigs_order
  sig := jvpSigs_sig
  vars := by decide
  plain := by simp [Expr.NoBroadcast]
  smooth i _ j _ := by simp [Expr.Smooth, binSmooth, unSmooth]

/-- The derivative of a Gaussian convolution when the points `x`, the points `y` and the signal `b` all move: the three
formulas can be computed, the three kernels run, and the sum of their outputs is the derivative. -/
example (m n : Nat) (hm : 0 < m) (hn : 0 < n) (args : Nat → Nat → ℝ) (δx δy δb : Nat → ℝ) (sch : SumScheme) :
    ∃ (S Sd : Scheme ℝ) (rs : VarId → Expr) (g : VarId → Mem ℝ),
      getScheme (sumRed (V := ℝ) 2) sch = some S ∧ getScheme (sumRed (V := ℝ) 2) .direct = some Sd ∧
      (∀ c ∈ jvpCalls jvpSigs [some δx, some δy, some δb], Exec (sumRed 2) Sd
        ((rs c.1).call id id realMath (fun _ _ => 0) 0 m n (gradArgs 3 args c.2 fun _ => 0)) (fun _ => 0) (g c.1)) ∧
      ∀ out₀ out : ℝ → Mem ℝ,
        (∀ τ, Exec (sumRed 2) S (gaussE.call id id realMath (fun _ _ => 0) 0 m n
          (movedAll args (dirs [some δx, some δy, some δb]) τ)) (out₀ τ) (out τ)) →
        ∀ i < m, ∀ k < 2, HasDerivAt (fun τ => out τ (i * 2 + k))
          (g ⟨0, 3, 0⟩ (i * 2 + k) + g ⟨1, 3, 1⟩ (i * 2 + k) + g ⟨2, 2, 1⟩ (i * 2 + k)) 0 := by
  have h0 : ∃ r, RedDiffs (.sum gaussE 0) ⟨0, 3, 0⟩ (tangentVar 3 ⟨0, 3, 0⟩) (resVar 3 gaussE.dim 0) (.sum r 0) :=
    ⟨_, 20, rfl⟩
  have h1 : ∃ r, RedDiffs (.sum gaussE 0) ⟨1, 3, 1⟩ (tangentVar 3 ⟨1, 3, 1⟩) (resVar 3 gaussE.dim 0) (.sum r 0) :=
    ⟨_, 20, rfl⟩
  have h2 : ∃ r, RedDiffs (.sum gaussE 0) ⟨2, 2, 1⟩ (tangentVar 3 ⟨2, 2, 1⟩) (resVar 3 gaussE.dim 0) (.sum r 0) :=
    ⟨_, 20, rfl⟩
  obtain ⟨r0, h0⟩ := h0
  obtain ⟨r1, h1⟩ := h1
  obtain ⟨r2, h2⟩ := h2
  let rs : VarId → Expr := fun v => if v.ind = 0 then r0 else if v.ind = 1 then r1 else r2
  have hcalls : jvpCalls jvpSigs [some δx, some δy, some δb] =
      [(⟨0, 3, 0⟩, δx), (⟨1, 3, 1⟩, δy), (⟨2, 2, 1⟩, δb)] := rfl
  obtain ⟨S, Sd, hS, hSd, hd, h⟩ := C66_sum_partial (gauss_jvp m n hm hn args) [some δx, some δy, some δb] rfl
    (fun _ => 0) rs (by
      rw [hcalls]
      intro c hc
      simp only [List.mem_cons, List.not_mem_nil, or_false] at hc
      rcases hc with rfl | rfl | rfl
      · exact h0
      · exact h1
      · exact h2) sch .direct
  have hg : ∀ c : VarId × Mem ℝ, ∃ g, Exec (sumRed 2) Sd
      ((rs c.1).call id id realMath (fun _ _ => 0) 0 m n (gradArgs 3 args c.2 fun _ => 0)) (fun _ => 0) g :=
    fun c => exec_exists_cpu ..
  choose G hG using hg
  let g : VarId → Mem ℝ := fun v => if v.ind = 0 then G (⟨0, 3, 0⟩, δx) else if v.ind = 1 then G (⟨1, 3, 1⟩, δy) else
    G (⟨2, 2, 1⟩, δb)
  have hex : ∀ c ∈ jvpCalls jvpSigs [some δx, some δy, some δb], Exec (sumRed 2) Sd
      ((rs c.1).call id id realMath (fun _ _ => 0) 0 m n (gradArgs 3 args c.2 fun _ => 0)) (fun _ => 0) (g c.1) := by
    rw [hcalls]
    intro c hc
    simp only [List.mem_cons, List.not_mem_nil, or_false] at hc
    rcases hc with rfl | rfl | rfl
    · exact hG _
    · exact hG _
    · exact hG _
  refine ⟨S, Sd, rs, g, hS, hSd, hex, fun out₀ out hout i hi k hk => ?_⟩
  have := h realMath realMath_exact _ (fun _ _ => 0) g hex out₀ out hout i hi k hk
  rw [hcalls] at this
  simp only [jvpOut, List.map_cons, List.map_nil, List.foldl_cons, List.foldl_nil, zero_add] at this
  exact this

/-! ## Declarations in another order than the arguments -/

/-- When the aliases give the positions of the arguments in another order, as in `["x = Vi(1,1)", "y = Vi(0,1)"]`, which
the forward pass supports, the tangents are exchanged: for the formula `x`, at any point, the array that is returned is
the tangent of the argument 0, and the derivative of the output is the tangent of the argument 1. -/
theorem not_C66_positions (args : Nat → Nat → ℝ) (δ₀ δ₁ : Nat → ℝ) (hδ : δ₀ 0 ≠ δ₁ 0) :
    ∃ (sigs : List VarId) (rs : VarId → Expr) (S : Scheme ℝ) (g : VarId → Mem ℝ),
      (sigs.map VarId.ind).Perm [0, 1] ∧
      (∀ c ∈ jvpCalls sigs [some δ₀, some δ₁], RedDiffs (.sum (.var 1 1 0) 0) c.1 (tangentVar 2 c.1) (resVar 2 1 0)
        (.sum (rs c.1) 0)) ∧
      getScheme (sumRed (V := ℝ) 1) .direct = some S ∧
      (∀ c ∈ jvpCalls sigs [some δ₀, some δ₁], Exec (sumRed 1) S
        ((rs c.1).call id id realMath (fun _ _ => 0) 0 1 1 (gradArgs 2 args c.2 fun _ => 0)) (fun _ => 0) (g c.1)) ∧
      ∀ out₀ out : ℝ → Mem ℝ,
        (∀ τ, Exec (sumRed 1) S ((Expr.var 1 1 0).call id id realMath (fun _ _ => 0) 0 1 1
          (movedAll args (dirs [some δ₀, some δ₁]) τ)) (out₀ τ) (out τ)) →
        HasDerivAt (fun τ => out τ 0) (δ₁ 0) 0 ∧
        ¬ HasDerivAt (fun τ => out τ 0) (jvpOut ((jvpCalls sigs [some δ₀, some δ₁]).map fun c => g c.1) 0) 0 := by
  let l : List (Int × Nat × Int) := [(0, 1, 0), (1, 1, 0), (2, 1, 0)]
  have hl : PlainVars l := ⟨by decide, by decide, by decide⟩
  obtain ⟨S, hS, -⟩ := C09_sum ℝ 1 .direct
  let rs : VarId → Expr := fun v => if v.ind = 1 then .var 2 1 0 else .zero 1
  have hcalls : jvpCalls [⟨1, 1, 0⟩, ⟨0, 1, 0⟩] [some δ₀, some δ₁] = [(⟨1, 1, 0⟩, δ₀), (⟨0, 1, 0⟩, δ₁)] := rfl
  obtain ⟨g₀, hg₀⟩ := exec_exists_cpu (sumRed 1) S
    ((Expr.var 2 1 0).call id id realMath (fun _ _ => 0) 0 1 1 (gradArgs 2 args δ₀ fun _ => 0)) (fun _ => 0)
  obtain ⟨g₁, hg₁⟩ := exec_exists_cpu (sumRed 1) S
    ((Expr.zero 1).call id id realMath (fun _ _ => 0) 0 1 1 (gradArgs 2 args δ₁ fun _ => 0)) (fun _ => 0)
  have hone : ∀ (A : Nat → Nat → ℝ) (r : Expr), r.WF → r.FactFree → (∀ t ∈ r.vars, t ∈ l) → r.dim = 1 →
      (∀ env, r.Def env) → ∀ out out', Exec (sumRed 1) S (r.call id id realMath (fun _ _ => 0) 0 1 1 A) out out' →
      out' 0 = r.val (readEnv l A (0, 0)) 0 := by
    intro A r hw hf hv hd hdef out out' he
    obtain ⟨S', hS', hrun⟩ := sum_exec (args := A) (axis := 0) (m := 1) (n := 1) hl hw hf hv (by omega)
      (fun _ _ _ _ => hdef _) .direct
    rw [hd, hS] at hS'
    cases hS'
    rw [hd] at hrun
    have := hrun realMath realMath_exact _ _ _ he 0 (by simp [outRows]) 0 (by omega)
    simpa [sumRow, redRows, pairAt] using this
  refine ⟨[⟨1, 1, 0⟩, ⟨0, 1, 0⟩], rs, S, fun v => if v.ind = 1 then g₀ else g₁, List.Perm.swap .., ?_, hS, ?_, ?_⟩
  · rw [hcalls]
    intro c hc
    simp only [List.mem_cons, List.not_mem_nil, or_false] at hc
    rcases hc with rfl | rfl
    · exact ⟨20, rfl⟩
    · exact ⟨20, rfl⟩
  · rw [hcalls]
    intro c hc
    simp only [List.mem_cons, List.not_mem_nil, or_false] at hc
    rcases hc with rfl | rfl
    · exact hg₀
    · exact hg₁
  · intro out₀ out hout
    have hder : HasDerivAt (fun τ => out τ 0) (δ₁ 0) 0 := by
      have : (fun τ => out τ 0) = fun τ => args 1 0 + τ * δ₁ 0 := by
        funext τ
        rw [hone _ (.var 1 1 0) (by simp [Expr.WF]) trivial (by simp [Expr.vars, l]) rfl (fun _ => trivial) _ _ (hout τ)]
        simp [Expr.val, cst, readEnv, l, movedAll, dirs, rowAt]
      rw [this]
      simpa using ((hasDerivAt_id (0 : ℝ)).mul_const (δ₁ 0)).const_add (args 1 0)
    refine ⟨hder, fun h => hδ ?_⟩
    have e := h.unique hder
    rw [hcalls] at e
    simp only [jvpOut, List.map_cons, List.map_nil, List.foldl_cons, List.foldl_nil, zero_add] at e
    have e0 := hone _ (.var 2 1 0) (by simp [Expr.WF]) trivial (by simp [Expr.vars, l]) rfl (fun _ => trivial) _ _ hg₀
    have e1 := hone _ (.zero 1) (by simp [Expr.WF]) trivial (by simp [Expr.vars]) rfl (fun _ => trivial) _ _ hg₁
    simp [Expr.val, cst, readEnv, l, rowAt, gradArgs] at e0 e1
    rw [← e]
    simp [e0, e1]

example : (1 : Nat → ℝ) 0 ≠ (0 : Nat → ℝ) 0 := by simp

end Verif
