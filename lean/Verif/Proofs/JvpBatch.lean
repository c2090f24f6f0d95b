import Verif.Proofs.JvpCall
import Verif.Props.BackwardBatch

/-!
# Forward-mode derivatives with batch dimensions

The arrays seen from one batch are arrays without batch dimensions: the results on pairs of rows apply to them.
-/

namespace Verif

open Finset Spec Filter Topology

/-- The number of entries of a variable in one batch. -/
def blockLen (l : List (Int × Nat × Int)) (m n q : Nat) : Nat :=
  match l.find? fun u => decide (u.1 = (q : Int)) with
  | some u => blockRows m n u.2.2.toNat * u.2.1
  | none => 0

/-- The arrays seen from the batch `b`. -/
def viewB (l : List (Int × Nat × Int)) (shapes : List (List Nat)) (m n : Nat) (b : List Nat) (args : Nat → Nat → ℝ) :
    Nat → Nat → ℝ := fun q k =>
  args q (Spec.pos ((shapes.getD q []).take b.length) (clipB ((shapes.getD q []).take b.length) b) * blockLen l m n q + k)

theorem viewB_moved (l : List (Int × Nat × Int)) (shapes : List (List Nat)) (m n : Nat) (b : List Nat)
    (args δ : Nat → Nat → ℝ) (τ : ℝ) :
    viewB l shapes m n b (movedAll args δ τ) = movedAll (viewB l shapes m n b args) (viewB l shapes m n b δ) τ := rfl

theorem readEnv_view {l : List (Int × Nat × Int)} {shapes : List (List Nat)} {batch b : List Nat} {m n : Nat}
    (hl : PlainVars l) (hs : CallShapes l shapes batch m n) (hb : Arr.Idx batch b) (args : Nat → Nat → ℝ) {p : Nat × Nat}
    (h1 : p.1 < m) (h2 : p.2 < n) : readEnv l (viewB l shapes m n b args) p = readBatch l shapes args b p := by
  funext w k
  rcases hf : l.find? fun u => u.1 = w with - | u
  · simp [readEnv, readBatch, hf]
  · have hw : u.1 = w := by simpa using List.find?_some hf
    have hu := List.mem_of_find?_eq_some hf
    subst hw
    obtain ⟨xb, hx, hsu⟩ := hs u hu
    rw [readEnv_at hl hu, readBatch_at hl hu hb hx hsu h1 h2]
    split
    · have h0 := hl.pos u hu
      have e1 : l.find? (fun v => v.1 = (u.1.toNat : Int)) = some u := by
        rw [Int.toNat_of_nonneg h0]
        exact hf
      have e2 : (shapes.getD u.1.toNat []).take b.length = xb := by
        rw [hsu, ← hb.length_eq, ← hx.length_eq, List.take_left]
      simp only [viewB, blockLen, e1, e2]
      congr 1
      ring
    · rfl

/-- The sum of the outputs of the calls is the derivative of the sum of the formula, at one output row: `A` are the arrays
of the call, `B c` those of the call for the argument `c`, and `Δ` the directions. -/
theorem jvp_row {sigs : List VarId} {tangents : List (Option (Mem ℝ))} {L : List (Int × Nat × Int)} {p : Expr}
    {rs : VarId → Expr} {tagI m n : Nat} {A Δ : Nat → Nat → ℝ} {B : VarId × Mem ℝ → Nat → Nat → ℝ}
    (hpos : ∀ (a : Nat) (v : VarId), sigs[a]? = some v → v.ind = a)
    (hvd : ∀ v ∈ sigs, 0 < v.dim) (hL : PlainVars L) (hsub : ∀ v ∈ sigs, (v.ind, v.dim, v.cat) ∈ L)
    (hη : ∀ u ∈ L, u.1 ≠ sigs.length) (P : Piece L m n A p)
    (hr : ∀ c ∈ jvpCalls sigs tangents, Diffs p c.1 (tangentVar sigs.length c.1) (rs c.1))
    (hAB : ∀ c ∈ jvpCalls sigs tangents, ∀ q, q ≠ sigs.length → B c q = A q)
    (hdir : ∀ (a : Nat) v δ, sigs[a]? = some v → tangents[a]? = some (some δ) → B (v, δ) sigs.length = Δ a)
    (h0 : ∀ a : Nat, (sigs.length ≤ a ∨ ∀ δ, tangents[a]? ≠ some (some δ)) → ∀ k, Δ a k = 0)
    {g : VarId → Mem ℝ} {q k x : Nat} (hq : q < outRows tagI m n) (hk : k < p.dim)
    (hrow : ∀ c ∈ jvpCalls sigs tangents, g c.1 x = sumRow (rs c.1) tagI m n
      (readEnv (L ++ [((sigs.length : Int), c.1.dim, c.1.cat)]) (B c)) q k) :
    HasDerivAt (fun τ => sumRow p tagI m n (readEnv L (movedAll A Δ τ)) q k)
      (jvpOut ((jvpCalls sigs tangents).map fun c => g c.1) x) 0 := by
  have hsig : ∀ c ∈ jvpCalls sigs tangents, c.1 ∈ sigs := fun c hc => by
    obtain ⟨a, h1, -⟩ := jvpCalls_mem hc
    exact List.mem_of_getElem? h1
  rw [jvpOut_sum]
  let D : Nat → Nat → ℝ := fun s a =>
    match sigs[a]?, tangents[a]? with
    | some v, some (some δ) => (rs v).val
        (readEnv (L ++ [((sigs.length : Int), v.dim, v.cat)]) (B (v, δ)) (pairAt tagI q s)) k
    | _, _ => 0
  have hterm : ∀ a, jvpTerm sigs tangents g x a = ∑ s ∈ range (redRows tagI m n), D s a := by
    intro a
    simp only [jvpTerm, D]
    cases h1 : sigs[a]? with
    | none => simp
    | some v =>
      cases h2 : tangents[a]? with
      | none => simp
      | some t =>
        cases t with
        | none => simp
        | some δ => exact hrow (v, δ) (mem_jvpCalls h1 h2)
  simp only [hterm]
  rw [sum_comm]
  unfold sumRow
  refine HasDerivAt.fun_sum fun s hs => ?_
  obtain ⟨p1, p2⟩ := pairAt_lt hq (mem_range.mp hs)
  refine joint_deriv P.wf P.ff _ (fun a b hab => h0 a (.inl hab) b) (P.smooth _ p1 _ p2) hk (D s) fun a ha => ?_
  have h1 : sigs[a]? = some sigs[a] := List.getElem?_eq_getElem ha
  have hind := hpos a _ h1
  have hzero : (∀ b, Δ a b = 0) →
      HasDerivAt (fun τ => p.val (readEnv L (moved A a (Δ a) τ) (pairAt tagI q s)) k) 0 0 := fun h0 => by
    have : ∀ τ, moved A a (Δ a) τ = A := fun τ => by
      funext b c
      simp [moved, h0]
    simp only [this]
    exact hasDerivAt_const _ _
  simp only [D, h1]
  cases h2 : tangents[a]? with
  | none => exact hzero (h0 a (.inr fun δ => by rw [h2]; simp))
  | some t =>
    cases t with
    | none => exact hzero (h0 a (.inr fun δ => by rw [h2]; simp))
    | some δ =>
      have hc := mem_jvpCalls h1 h2
      have h3 := ((pair_diff (B := B (sigs[a], δ))
        (hL.add (x := ((sigs.length : Int), sigs[a].dim, sigs[a].cat)) (Int.natCast_nonneg _)
          (hL.cat (sigs[a].ind, sigs[a].dim, sigs[a].cat) (hsub _ (hsig _ hc))) hη)
        (hsub _ (hsig _ hc)) (hvd _ (hsig _ hc)) hη (hAB _ hc) P (hr _ hc) (by omega) (by omega)).2.2.2.2 _ p1 _ p2).2 k hk
      have e1 : (sigs[a] : VarId).ind.toNat = a := by rw [hind, Int.toNat_natCast]
      rw [e1, hdir a _ δ h1 h2] at h3
      exact h3

end Verif
