import Verif.Proofs.Gpu2D
import Verif.Props.LogSumExp

/-!
# C20: the two-pass GPU scheme

`Exec2D R sch P out out'` ranges over the executions of the 2D scheme (any block size, any order of
the threads of each of the two kernels), `Exec R S P out out'` over the executions of the sequential
CPU loop and of the 1D kernel.
-/

namespace Verif

open Spec (outRows redRows EvLocal WfVars)
open XR

variable {V : Type}

/-- The items determine the accumulator. -/
def AccDet (n : Nat) (A : List (Nat × Mem V) → Mem V → Prop) (xs : List (Nat × Mem V)) : Prop :=
  ∀ a b, A xs a → A xs b → ∀ k < n, a k = b k

/-- The output depends on the `dimred` first entries of the accumulator only. -/
def FinReads (R : Red V) : Prop :=
  ∀ a b, (∀ k < R.dimred, a k = b k) → ∀ k < R.dim, ∀ o, R.fin a o k = R.fin b o k

theorem exec2D_eq {E} {R : Red V} {A} (h : Lawful E R A) (hA : AccLocal R.dimred A)
    (hf : FinLocal R) (hr : FinReads R) (hdim : R.dim ≠ 0 → R.dimred ≠ 0) {P : Problem V}
    (hP : WfProblem P) (hne : E ∨ 0 < redRows P.tagI P.M P.N)
    (hd : ∀ i < outRows P.tagI P.M P.N, AccDet R.dimred A (rowItems P i))
    {out out1 out2 : Mem V} (he2 : Exec2D R .block P out out2)
    (he1 : Exec R (directScheme R) P out out1) : out2 = out1 := by
  obtain ⟨g1, g2⟩ := exec2D_correct h hA hf hdim hP he2
  obtain ⟨f1, f2⟩ := exec_correct (directScheme_lawful h) hf hP hne he1
  funext p
  by_cases hp : outRows P.tagI P.M P.N * R.dim ≤ p
  · rw [g2 p hp, f2 p hp]
  · have hdpos : 0 < R.dim := by
      rcases Nat.eq_zero_or_pos R.dim with h0 | h0
      · rw [h0, Nat.mul_zero] at hp; omega
      · exact h0
    have hi : p / R.dim < outRows P.tagI P.M P.N := by
      apply Nat.div_lt_of_lt_mul
      rw [Nat.mul_comm]; omega
    have hk := Nat.mod_lt p hdpos
    obtain ⟨a, ha, ho⟩ := g1 _ hi
    obtain ⟨b, hb, hq⟩ := f1 _ hi
    have e : p / R.dim * R.dim + p % R.dim = p := by
      rw [Nat.mul_comm]; exact Nat.div_add_mod p _
    have h1 := ho _ hk out
    have h2 := hq _ hk out
    rw [e] at h1 h2
    rw [h1, h2]
    exact hr a b (hd _ hi a b ha hb) _ hk _

/-- The accumulator of a sequence of items: `ReducePairShort` on each of them, in order. -/
def accOf (R : Red V) (junk : Mem V) (xs : List (Nat × Mem V)) : Mem V :=
  xs.foldl (fun a x => R.short a x.2 x.1) (R.init junk)

theorem Lawful.accOf {E} {R : Red V} {A} (h : Lawful E R A) (junk : Mem V)
    (xs : List (Nat × Mem V)) : A xs (accOf R junk xs) := by
  have : ∀ (ys xs : List (Nat × Mem V)) acc, A xs acc →
      A (xs ++ ys) (ys.foldl (fun a x => R.short a x.2 x.1) acc) := by
    intro ys
    induction ys with
    | nil => intro xs acc ha; simpa using ha
    | cons y ys ih =>
      intro xs acc ha
      have := ih _ _ (h.short xs acc y.2 y.1 ha)
      simpa using this
  have h0 := this xs [] _ (h.init junk)
  rw [List.nil_append] at h0
  exact h0

/-- Merging the accumulators of two consecutive pieces gives the accumulator of the whole. -/
theorem merge_eq {E} {R : Red V} {A} (h : Lawful E R A) {pair} (hp : R.pair = some pair)
    (xs ys : List (Nat × Mem V)) (hne : E ∨ xs ++ ys ≠ []) (hd : AccDet R.dimred A (xs ++ ys))
    (j1 j2 j3 : Mem V) : ∀ k < R.dimred,
      pair (accOf R j1 xs) (accOf R j2 ys) k = accOf R j3 (xs ++ ys) k :=
  hd _ _ (h.pair pair hp xs ys _ _ hne (h.accOf j1 xs) (h.accOf j2 ys)) (h.accOf j3 _)

/-! ### Locality and determinacy of the accumulators -/

theorem sumAcc_local [AddCommGroup V] (d : Nat) : AccLocal d (SumAcc (V := V) d) := by
  intro xs a b hab ha k hk
  rw [← hab k hk]; exact ha k hk

theorem sumAcc_det [AddCommGroup V] (d : Nat) (xs : List (Nat × Mem V)) :
    AccDet d (SumAcc d) xs := fun a b ha hb k hk => (ha k hk).trans (hb k hk).symm

theorem minAcc_local [LinearOrder V] [OrderTop V] (d : Nat) : AccLocal d (MinAcc (V := V) d) := by
  intro xs a b hab ha k hk
  rw [← hab k hk]; exact ha k hk

theorem minAcc_det [LinearOrder V] [OrderTop V] (d : Nat) (xs : List (Nat × Mem V)) :
    AccDet d (MinAcc d) xs := by
  intro a b ha hb k hk
  have key : ∀ (l : List V) u v, IsMinOf l u → IsMinOf l v → u ≤ v := by
    intro l u v hu hv
    rcases hv.2 with h | h
    · rw [h]; exact le_top
    · exact hu.1 _ h
  exact le_antisymm (key _ _ _ (ha k hk) (hb k hk)) (key _ _ _ (hb k hk) (ha k hk))

theorem maxAcc_local [LinearOrder V] [OrderBot V] (d : Nat) : AccLocal d (MaxAcc (V := V) d) := by
  intro xs a b hab ha k hk
  rw [← hab k hk]; exact ha k hk

theorem maxAcc_det [LinearOrder V] [OrderBot V] (d : Nat) (xs : List (Nat × Mem V)) :
    AccDet d (MaxAcc d) xs := by
  intro a b ha hb k hk
  have key : ∀ (l : List V) u v, IsMaxOf l u → IsMaxOf l v → u ≤ v := by
    intro l u v hu hv
    rcases hu.2 with h | h
    · rw [h]; exact bot_le
    · exact hv.1 _ h
  exact le_antisymm (key _ _ _ (ha k hk) (hb k hk)) (key _ _ _ (hb k hk) (ha k hk))

/-- Position of cell `l` of column `k`. -/
theorem cell_bound {f K k l : Nat} (hk : k < f) (hl : l < K) :
    k + l * (2 * f) + f < 2 * K * f := by
  have : (l + 1) * (2 * f) ≤ K * (2 * f) := Nat.mul_le_mul_right _ hl
  rw [Nat.succ_mul] at this
  rw [show 2 * K * f = K * (2 * f) by rw [Nat.mul_comm 2 K, Nat.mul_assoc]]
  omega

/-- Every position of the accumulator of KMin belongs to a cell. -/
theorem cell_split {f K p : Nat} (hp : p < 2 * K * f) : ∃ k < f, ∃ l < K,
    p = k + l * (2 * f) ∨ p = k + l * (2 * f) + f := by
  have hf : 0 < f := by
    rcases Nat.eq_zero_or_pos f with h | h
    · subst h; simp at hp
    · exact h
  have e := Nat.div_add_mod p (2 * f)
  have hm := Nat.mod_lt p (show 0 < 2 * f by omega)
  have hl : p / (2 * f) < K := by
    apply Nat.div_lt_of_lt_mul
    rw [show 2 * f * K = 2 * K * f by rw [Nat.mul_right_comm]]
    exact hp
  rw [Nat.mul_comm (2 * f)] at e
  by_cases h : p % (2 * f) < f
  · exact ⟨p % (2 * f), h, p / (2 * f), hl, Or.inl (by omega)⟩
  · exact ⟨p % (2 * f) - f, by omega, p / (2 * f), hl, Or.inr (by omega)⟩

theorem kview_local {f K : Nat} {a b : Mem V} (h : ∀ p < 2 * K * f, a p = b p) {k : Nat}
    (hk : k < f) : kview f K k a = kview f K k b := by
  unfold kview
  apply List.map_congr_left
  intro l hl
  have hl' : l < K := by simpa using hl
  have := cell_bound hk hl'
  unfold cell
  rw [h _ (by omega), h _ (by omega)]

theorem kminAcc_local [LinearOrder V] [OrderTop V] (cast : Nat → V) (f K : Nat) :
    AccLocal (2 * K * f) (KMinAcc cast f K) := by
  intro xs a b hab ha k hk
  rw [← kview_local hab hk]
  exact ha k hk

theorem kminAcc_det [LinearOrder V] [OrderTop V] (cast : Nat → V) (f K : Nat)
    (xs : List (Nat × Mem V)) : AccDet (2 * K * f) (KMinAcc cast f K) xs := by
  intro a b ha hb p hp
  obtain ⟨k, hk, l, hl, h⟩ := cell_split hp
  have e := (ha k hk).trans (hb k hk).symm
  have hc : cell f k a l = cell f k b l := by
    have := congrArg (fun L => L[l]?) e
    simp only [kview, List.getElem?_map, List.getElem?_range hl, Option.map_some,
      Option.some.injEq] at this
    exact this
  unfold cell at hc
  rcases h with rfl | rfl
  · exact (Prod.mk.inj hc).1
  · exact (Prod.mk.inj hc).2

theorem lseAcc_local (dG : Nat) : AccLocal (1 + dG) (LseAcc dG) := by
  intro xs a b hab ha hfin
  rcases ha hfin with ⟨h1, h2, h3⟩ | ⟨h1, M, h2, h3, h4, h5⟩
  · exact Or.inl ⟨h1, by rw [← hab 0 (by omega)]; exact h2,
      fun k hk => by rw [← hab (1 + k) (by omega)]; exact h3 k hk⟩
  · exact Or.inr ⟨h1, M, by rw [← hab 0 (by omega)]; exact h2, h3, h4,
      fun k hk => by rw [← hab (1 + k) (by omega)]; exact h5 k hk⟩

theorem lseAcc_det (dG : Nat) (xs : List (Nat × Mem XR)) (hfin : ∀ x ∈ xs, FinItem dG x.2) :
    AccDet (1 + dG) (LseAcc dG) xs := by
  intro a b ha hb k hk
  have hk' : k = 0 ∨ ∃ k', k' < dG ∧ k = 1 + k' := by
    rcases Nat.eq_zero_or_pos k with h | h
    · exact Or.inl h
    · exact Or.inr ⟨k - 1, by omega, by omega⟩
  rcases ha hfin with ⟨h1, h2, h3⟩ | ⟨h1, M, h2, h3, ⟨x, hx, hxe⟩, h5⟩
  · rcases hb hfin with ⟨-, g2, g3⟩ | ⟨g1, _⟩
    · rcases hk' with rfl | ⟨k', hk', rfl⟩
      · rw [h2, g2]
      · rw [h3 k' hk', g3 k' hk']
    · exact absurd h1 g1
  · rcases hb hfin with ⟨g1, _⟩ | ⟨-, M', g2, g3, ⟨x', hx', hxe'⟩, g5⟩
    · exact absurd g1 h1
    · have : M = M' := le_antisymm (hxe ▸ g3 x hx) (hxe' ▸ h3 x' hx')
      subst this
      rcases hk' with rfl | ⟨k', hk', rfl⟩
      · rw [h2, g2]
      · rw [h5 k' hk', g5 k' hk']

/-! ## C13: splitting the reduction axis -/

/-- C13 (sum): merging the accumulators of `xs` and `ys` gives the accumulator of `xs ++ ys`. -/
theorem C13_sum_merge (V : Type) [AddCommGroup V] (d : Nat) :
    ∃ pair, (sumRed (V := V) d).pair = some pair ∧ ∀ xs ys j1 j2 j3, ∀ k < d,
      pair (accOf (sumRed d) j1 xs) (accOf (sumRed d) j2 ys) k =
        accOf (sumRed d) j3 (xs ++ ys) k :=
  ⟨_, rfl, fun xs ys j1 j2 j3 => merge_eq (sumRed_lawful d) rfl xs ys (Or.inl trivial)
    (sumAcc_det d _) j1 j2 j3⟩

theorem C13_min_merge (V : Type) [LinearOrder V] [OrderTop V] (d : Nat) :
    ∃ pair, (minRed (V := V) d).pair = some pair ∧ ∀ xs ys j1 j2 j3, ∀ k < d,
      pair (accOf (minRed d) j1 xs) (accOf (minRed d) j2 ys) k =
        accOf (minRed d) j3 (xs ++ ys) k :=
  ⟨_, rfl, fun xs ys j1 j2 j3 => merge_eq (minRed_lawful d) rfl xs ys (Or.inl trivial)
    (minAcc_det d _) j1 j2 j3⟩

theorem C13_max_merge (V : Type) [LinearOrder V] [OrderBot V] (d : Nat) :
    ∃ pair, (maxRed (V := V) d).pair = some pair ∧ ∀ xs ys j1 j2 j3, ∀ k < d,
      pair (accOf (maxRed d) j1 xs) (accOf (maxRed d) j2 ys) k =
        accOf (maxRed d) j3 (xs ++ ys) k :=
  ⟨_, rfl, fun xs ys j1 j2 j3 => merge_eq (maxRed_lawful d) rfl xs ys (Or.inl trivial)
    (maxAcc_det d _) j1 j2 j3⟩

theorem C13_kmin_merge (V : Type) [LinearOrder V] [OrderTop V] (cast : Nat → V) (d K : Nat) :
    ∃ pair, (kminArgKminRed cast d K).pair = some pair ∧ ∀ xs ys j1 j2 j3, ∀ k < 2 * K * d,
      pair (accOf (kminArgKminRed cast d K) j1 xs) (accOf (kminArgKminRed cast d K) j2 ys) k =
        accOf (kminArgKminRed cast d K) j3 (xs ++ ys) k :=
  ⟨_, rfl, fun xs ys j1 j2 j3 => merge_eq (kminArgKminRed_lawful cast d K) rfl xs ys
    (Or.inl trivial) (kminAcc_det cast d K _) j1 j2 j3⟩

/-- C13 (log-sum-exp and softmax): finite terms, at least one term in one of the two pieces. -/
theorem C13_lse_merge (g : ℝ → XR) (dG : Nat) :
    ∃ pair, (@lseRed XR (xrNum g) dG).pair = some pair ∧ ∀ xs ys j1 j2 j3, xs ++ ys ≠ [] →
      (∀ x ∈ xs ++ ys, FinItem dG x.2) → ∀ k < 1 + dG,
      pair (accOf (@lseRed XR (xrNum g) dG) j1 xs) (accOf (@lseRed XR (xrNum g) dG) j2 ys) k =
        accOf (@lseRed XR (xrNum g) dG) j3 (xs ++ ys) k :=
  ⟨_, rfl, fun xs ys j1 j2 j3 hne hfin => merge_eq (lseRed_lawful g dG) rfl xs ys (Or.inr hne)
    (lseAcc_det dG _ hfin) j1 j2 j3⟩

example : accOf (minRed (V := WithTop ℤ) 1) (fun _ => 0) [(0, fun _ => 5), (1, fun _ => 3)] 0 = 3 := by
  decide

/-! ## C20: the two-pass scheme -/

/-- C20 (sum): the two-pass scheme gives the output of the sequential scheme. -/
theorem C20_sum (V : Type) [AddCommGroup V] (d : Nat) {P : Problem V} (hP : WfProblem P)
    {out out1 out2 : Mem V} (he2 : Exec2D (sumRed d) .block P out out2)
    (he1 : Exec (sumRed d) (directScheme (sumRed d)) P out out1) : out2 = out1 :=
  exec2D_eq (sumRed_lawful d) (sumAcc_local d) (sumRed_finLocal d)
    (fun a b h k hk o => by
      have hk' : k < d := hk
      simp only [sumRed, vectCopy_apply, hk', if_true]; exact h k hk)
    id hP (Or.inl trivial) (fun i _ => sumAcc_det d _) he2 he1

/-- C20 (min). -/
theorem C20_min (V : Type) [LinearOrder V] [OrderTop V] (d : Nat) {P : Problem V} (hP : WfProblem P)
    {out out1 out2 : Mem V} (he2 : Exec2D (minRed d) .block P out out2)
    (he1 : Exec (minRed d) (directScheme (minRed d)) P out out1) : out2 = out1 :=
  exec2D_eq (minRed_lawful d) (minAcc_local d) (minRed_finLocal d)
    (fun a b h k hk o => by
      have hk' : k < d := hk
      simp only [minRed, vectCopy_apply, hk', if_true]; exact h k hk)
    id hP (Or.inl trivial) (fun i _ => minAcc_det d _) he2 he1

/-- C20 (max). -/
theorem C20_max (V : Type) [LinearOrder V] [OrderBot V] (d : Nat) {P : Problem V} (hP : WfProblem P)
    {out out1 out2 : Mem V} (he2 : Exec2D (maxRed d) .block P out out2)
    (he1 : Exec (maxRed d) (directScheme (maxRed d)) P out out1) : out2 = out1 :=
  exec2D_eq (maxRed_lawful d) (maxAcc_local d) (maxRed_finLocal d)
    (fun a b h k hk o => by
      have hk' : k < d := hk
      simp only [maxRed, vectCopy_apply, hk', if_true]; exact h k hk)
    id hP (Or.inl trivial) (fun i _ => maxAcc_det d _) he2 he1

/-- C20 (KMin with indices). -/
theorem C20_kmin_argkmin (V : Type) [LinearOrder V] [OrderTop V] (cast : Nat → V) (d K : Nat)
    {P : Problem V} (hP : WfProblem P) {out out1 out2 : Mem V}
    (he2 : Exec2D (kminArgKminRed cast d K) .block P out out2)
    (he1 : Exec (kminArgKminRed cast d K) (directScheme (kminArgKminRed cast d K)) P out out1) :
    out2 = out1 :=
  exec2D_eq (kminArgKminRed_lawful cast d K) (kminAcc_local cast d K)
    (kminArgKminRed_finLocal cast d K)
    (fun a b h k hk o => by
      have hk' : k < 2 * K * d := hk
      simp only [kminArgKminRed, vectCopy_apply, hk', if_true]; exact h k hk)
    id hP (Or.inl trivial) (fun i _ => kminAcc_det cast d K _) he2 he1

theorem kfin_reads [LinearOrder V] [OrderTop V] {f K : Nat} {a b : Mem V} (h : ∀ p < 2 * K * f, a p = b p) (hf : 0 < f)
    (o : Mem V) {k : Nat} (hk : k < K * f) :
    kminFin f K a o k = kminFin f K b o k ∧ argKminFin f K a o k = argKminFin f K b o k := by
  have hm := Nat.mod_lt k hf
  have hl : k / f < K := (Nat.div_lt_iff_lt_mul hf).mpr hk
  have hb := cell_bound hm hl
  unfold kminFin argKminFin
  rw [kfin_apply f K a o k hf, kfin_apply f K b o k hf,
    kfin_apply f K (fun l => a (l + f)) o k hf, kfin_apply f K (fun l => b (l + f)) o k hf]
  simp only [hk, if_true]
  exact ⟨h _ (by omega), h _ (by omega)⟩

/-- C20 (KMin). -/
theorem C20_kmin (V : Type) [LinearOrder V] [OrderTop V] (cast : Nat → V) (d K : Nat) (hd : 0 < d)
    {P : Problem V} (hP : WfProblem P) {out out1 out2 : Mem V}
    (he2 : Exec2D (kminRed cast d K) .block P out out2)
    (he1 : Exec (kminRed cast d K) (directScheme (kminRed cast d K)) P out out1) :
    out2 = out1 :=
  exec2D_eq (kminRed_lawful cast d K) (kminAcc_local cast d K) (kminRed_finLocal cast hd K)
    (fun a b h k hk o => (kfin_reads h hd o hk).1)
    (fun h => by
      have h' : K * d ≠ 0 := h
      have : 2 * K * d ≠ 0 := by
        rw [Nat.mul_assoc]; omega
      exact this) hP (Or.inl trivial) (fun i _ => kminAcc_det cast d K _) he2 he1

/-- C20 (ArgKMin). -/
theorem C20_argkmin (V : Type) [LinearOrder V] [OrderTop V] (cast : Nat → V) (d K : Nat) (hd : 0 < d)
    {P : Problem V} (hP : WfProblem P) {out out1 out2 : Mem V}
    (he2 : Exec2D (argKminRed cast d K) .block P out out2)
    (he1 : Exec (argKminRed cast d K) (directScheme (argKminRed cast d K)) P out out1) :
    out2 = out1 :=
  exec2D_eq (argKminRed_lawful cast d K) (kminAcc_local cast d K) (argKminRed_finLocal cast hd K)
    (fun a b h k hk o => (kfin_reads h hd o hk).2)
    (fun h => by
      have h' : K * d ≠ 0 := h
      have : 2 * K * d ≠ 0 := by
        rw [Nat.mul_assoc]; omega
      exact this) hP (Or.inl trivial) (fun i _ => kminAcc_det cast d K _) he2 he1

/-- C20 (log-sum-exp and softmax), finite terms. -/
theorem C20_lse (g : ℝ → XR) (dG : Nat) {P : Problem XR} (hP : WfProblem P)
    (hne : 0 < redRows P.tagI P.M P.N) (hfin : FiniteTerms P dG) {out out1 out2 : Mem XR}
    (he2 : Exec2D (@lseRed XR (xrNum g) dG) .block P out out2)
    (he1 : Exec (@lseRed XR (xrNum g) dG) (directScheme (@lseRed XR (xrNum g) dG)) P out out1) :
    out2 = out1 :=
  exec2D_eq (lseRed_lawful g dG) (lseAcc_local dG) (lseRed_finLocal g dG)
    (fun a b h k hk o => by
      have hk' : k < 1 + dG := hk
      simp only [lseRed, vectCopy_apply, hk', if_true]; exact h k hk)
    id hP (Or.inr hne) (fun i hi => lseAcc_det dG _ (fun x hx => by
      obtain ⟨j, hj, rfl⟩ := rowItems_mem.mp hx
      exact hfin i hi j hj)) he2 he1

/-- C20, scope: with the scheme `block_sum` the code is generated for each of these reductions; with
the two other schemes it is never generated, and neither is it for the arg reductions. -/
theorem C20_generated (V : Type) [LinearOrder V] [OrderTop V] [OrderBot V] (cast : Nat → V)
    (d K : Nat) :
    (∀ R : Red V, gen2D R .direct = none ∧ gen2D R .kahan = none) ∧
    (gen2D (minRed (V := V) d) .block).isSome ∧ (gen2D (maxRed (V := V) d) .block).isSome ∧
    (gen2D (kminArgKminRed cast d K) .block).isSome ∧ (gen2D (kminRed cast d K) .block).isSome ∧
    (gen2D (argKminRed cast d K) .block).isSome ∧
    gen2D (argMinRed cast d) .block = none ∧ gen2D (argMaxRed cast d) .block = none ∧
    gen2D (minArgMinRed cast d) .block = none ∧ gen2D (maxArgMaxRed cast d) .block = none :=
  ⟨fun _ => ⟨rfl, rfl⟩, rfl, rfl, rfl, rfl, rfl, rfl, rfl, rfl, rfl⟩

/-- Executions exist: 3 and 5 points, blocks of 2 threads. -/
example : WfProblem (exProblem ℤ 3 5 (fun _ k => k)) ∧
    (∀ out, ∃ out', Exec2D (sumRed (V := ℤ) 1) .block (exProblem ℤ 3 5 (fun _ k => k)) out out') :=
  ⟨exProblem_wf .., fun out => ⟨_, Exec2D.mk _ rfl 2 (by decide) (by decide) (by decide)
    (fun _ => (List.range 2).reverse) (fun _ => List.reverse_perm _) (fun _ _ => out) _
    (List.reverse_perm _) out (fun _ => out) _ (List.reverse_perm _)⟩⟩

end Verif
