import Verif.Proofs.Vmap
import Verif.Props.EndToEndBatch

/-!
# The calls of C48 as calls of C52
-/

namespace Verif

open Spec

theorem row_rowAt {tagI i j : Nat} (ht : tagI < 2) {c : Int} (hc : c = 0 ∨ c = 1 ∨ c = 2) :
    row tagI i j c.toNat = rowAt c (pairAt tagI i j) := by
  obtain rfl | rfl : tagI = 0 ∨ tagI = 1 := by omega
  all_goals rcases hc with rfl | rfl | rfl <;> simp [row, rowAt, pairAt]

theorem PlainVars.inputs {L : List (Int × Nat × Int)} (hl : PlainVars L) {t : Term} (hv : ∀ u ∈ t.vars, u ∈ L) : t.Inputs :=
  ⟨fun v h => hl.pos v (hv v h), fun v h => hl.cat v (hv v h), fun u hu v h => hl.unique u (hv u hu) v (hv v h)⟩

/-- An index of the batch, as a list. -/
theorem idx_list {batch : List Nat} {idx : Nat → Nat} (h : ∀ c < batch.length, idx c < batch.getD c 0) :
    Arr.Idx batch ((List.range batch.length).map idx) := by
  refine List.forall₂_iff_get.mpr ⟨by simp, fun c h1 h2 => ?_⟩
  have := h c h1
  simpa [List.getD_eq_getElem?_getD, h1] using this

theorem list_idx {batch b : List Nat} (hb : Arr.Idx batch b) :
    (∀ c < batch.length, b.getD c 0 < batch.getD c 0) ∧ (List.range batch.length).map (fun c => b.getD c 0) = b := by
  have hbl := hb.length_eq
  refine ⟨fun c hc => ?_, ?_⟩
  · have := (List.forall₂_iff_get.mp hb).2 c hc (by omega)
    have hc' : c < b.length := by omega
    simpa [List.getD_eq_getElem?_getD, hc, hc'] using this
  · apply List.ext_getElem
    · simp [hbl]
    · intro i h1 h2
      simp [List.getD_eq_getElem?_getD, h2]

section

variable {L : List (Int × Nat × Int)} {t : Term} {e : Expr} {tagI m n : Nat} {args : Nat → Nat → ℝ}

/-- A call without batch dimensions. -/
theorem PlainVars.setting (hl : PlainVars L) (hp : t.Pos) (hr : Runs t e) (ht : tagI < 2) (hv : ∀ u ∈ t.vars, u ∈ L)
    {env : Nat → Nat → Env}
    (he : ∀ i < outRows tagI m n, ∀ j < redRows tagI m n, env i j = readEnv L args (pairAt tagI i j))
    (hd : ∀ i < outRows tagI m n, ∀ j < redRows tagI m n, t.Def (env i j)) : Setting t e tagI m n args env :=
  ⟨hp, hl.inputs hv, hr, ht, fun i hi j hj v hvt k hk => by
    rw [he i hi j hj, readEnv_at hl (hv v hvt), if_pos hk, row_rowAt ht (hl.cat v (hv v hvt))], hd⟩

/-- A call with batch dimensions. -/
theorem PlainVars.batchSetting (hl : PlainVars L) (hp : t.Pos) (hr : Runs t e) (ht : tagI < 2)
    (hv : ∀ u ∈ t.vars, u ∈ L) (hev : ∀ u ∈ e.vars, u ∈ L) {shapes : List (List Nat)} {batch : List Nat}
    (hs : CallShapes L shapes batch m n) (hc : CallBatch e shapes batch) {env : (Nat → Nat) → Nat → Nat → Env}
    (he : ∀ idx : Nat → Nat, (∀ c < batch.length, idx c < batch.getD c 0) →
      ∀ i < outRows tagI m n, ∀ j < redRows tagI m n,
        env idx i j = readBatch L shapes args ((List.range batch.length).map idx) (pairAt tagI i j))
    (hd : ∀ idx : Nat → Nat, (∀ c < batch.length, idx c < batch.getD c 0) →
      ∀ i < outRows tagI m n, ∀ j < redRows tagI m n, t.Def (env idx i j)) :
    BatchSetting t e tagI batch.length (fun c => batch.getD c 0) shapes m n args env := by
  obtain ⟨c1, c2, c3, c4⟩ := call_shapes (hl.mono hev) (fun u hu => hs u (hev u hu)) hc
  refine ⟨hp, hl.inputs hv, hr, ht, c2, c1, c3, c4, fun idx hidx i hi j hj v hvt k hk => ?_, hd⟩
  obtain ⟨xb, hx, hsu⟩ := hs v (hv v hvt)
  obtain ⟨p1, p2⟩ := pairAt_lt hi hj
  have hb := idx_list hidx
  dsimp only
  rw [he idx hidx i hi j hj, readBatch_at hl (hv v hvt) hb hx hsu p1 p2, if_pos hk, row_rowAt ht (hl.cat v (hv v hvt)),
    ← ravel_bcast (T := tailShape v.2.2 (if v.2.2 = 1 then n else m) v.2.1) hx hb, ← hsu]
  have hra : ∀ dims : Nat → Nat, Spec.ravel batch.length dims (bcast dims fun c =>
      ((List.range batch.length).map idx).getD c 0) = Spec.ravel batch.length dims (bcast dims idx) := fun dims =>
    Verif.ravel_congr (fun c _ => rfl) fun c hc => by simp [bcast, List.getD_eq_getElem?_getD, hc]
  rw [hra]

end

end Verif
