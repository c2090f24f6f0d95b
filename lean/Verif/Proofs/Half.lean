import Mathlib.Algebra.BigOperators.Group.Finset.Basic
import Mathlib.Algebra.BigOperators.Pi
import Mathlib.Data.Finset.Card
import Mathlib.Tactic.Ring
import Verif.Model.Half
import Verif.Proofs.Exec

/-! Lemmas on the half precision packing. -/

namespace Verif

open Spec (EvLocal WfVars)

variable {V : Type}

/-- Row of the original array found in row `r` of `make_odd_cat`. -/
def oddRow (N r : Nat) : Nat :=
  if r < N then r else if N % 2 = 0 then (if r = N then N - 1 else r - (N + 1)) else r - N

theorem oddRow_lt {N l : Nat} (hl : l < 2) {j : Nat} (hj : j < N) : oddRow N (2 * j + l) < N := by
  unfold oddRow
  split_ifs <;> omega

theorem oddRow_inj {N l : Nat} (hl : l < 2) {j j' : Nat} (hj : j < N) (hj' : j' < N)
    (h : oddRow N (2 * j + l) = oddRow N (2 * j' + l)) : j = j' := by
  unfold oddRow at h
  split_ifs at h <;> omega

/-- The rows met in one of the two components are all the rows, once each. -/
theorem sum_oddRow [AddCommMonoid V] (N : Nat) {l : Nat} (hl : l < 2) (f : Nat → V) :
    ∑ j ∈ Finset.range N, f (oddRow N (2 * j + l)) = ∑ j ∈ Finset.range N, f j := by
  have hinj : Set.InjOn (fun j => oddRow N (2 * j + l)) (Finset.range N) := by
    intro a ha b hb h
    exact oddRow_inj hl (Finset.mem_range.1 ha) (Finset.mem_range.1 hb) h
  have himg : (Finset.range N).image (fun j => oddRow N (2 * j + l)) = Finset.range N := by
    apply Finset.eq_of_subset_of_card_le
    · intro a ha
      obtain ⟨j, hj, rfl⟩ := Finset.mem_image.1 ha
      exact Finset.mem_range.2 (oddRow_lt hl (Finset.mem_range.1 hj))
    · rw [Finset.card_image_of_injOn hinj]
  conv_rhs => rw [← himg, Finset.sum_image hinj]

theorem makeOddCat_row {N D : Nat} {y y' : Mem V} (h : makeOddCat N D y = some y') {r k : Nat}
    (hr : r < 2 * N) (hk : k < D) : y' (r * D + k) = y (oddRow N r * D + k) := by
  have key : ∀ a b : Nat, a < b → a * D + k < b * D := fun a b hab => by
    calc a * D + k < a * D + D := by omega
      _ = (a + 1) * D := by ring
      _ ≤ b * D := Nat.mul_le_mul_right _ hab
  have key' : ∀ a b : Nat, b ≤ a → ¬ a * D + k < b * D := fun a b hab => by
    have := Nat.mul_le_mul_right D hab
    omega
  unfold makeOddCat at h
  split_ifs at h with h1 h2
  · injection h with h
    subst h
    unfold oddRow
    by_cases c1 : r < N
    · simp only [key r N c1, c1, if_true]
    · simp only [key' r N (by omega), c1, if_false, h1, if_true]
      have e : N * D + D = (N + 1) * D := by ring
      by_cases c2 : r = N
      · subst c2
        rw [if_pos rfl, e, if_pos (key r (r + 1) (by omega))]
        congr 1
        omega
      · rw [if_neg c2, e, if_neg (key' r (N + 1) (by omega)), Nat.sub_mul]
        have := Nat.mul_le_mul_right D (show N + 1 ≤ r by omega)
        congr 1
        omega
  · injection h with h
    subst h
    unfold oddRow
    by_cases c1 : r < N
    · simp only [key r N c1, c1, if_true]
    · simp only [key' r N (by omega), c1, if_false, h1]
      rw [Nat.sub_mul]
      have := Nat.mul_le_mul_right D (show N ≤ r by omega)
      congr 1
      omega

theorem makeEvenSize_row (M D : Nat) (x : Mem V) {r k : Nat} (hr : r < M) (hk : k < D) :
    (makeEvenSize M D x).1 (r * D + k) = x (r * D + k) := by
  unfold makeEvenSize
  have : r * D + k < M * D := by
    calc r * D + k < r * D + D := by omega
      _ = (r + 1) * D := by ring
      _ ≤ M * D := Nat.mul_le_mul_right _ hr
  split_ifs with h <;> simp [this]

/-- The dummy row. -/
theorem makeEvenSize_last (D : Nat) (x : Mem V) {k : Nat} (hk : k < D) {l : Nat} (hl : l < 2) :
    (makeEvenSize 1 D x).1 (l * D + k) = x k := by
  unfold makeEvenSize
  have : l = 0 ∨ l = 1 := by omega
  rcases this with rfl | rfl
  · simp [hk]
  · simp

/-- Entry `l` of the pair at `(r, k)` is the entry of row `2 r + l`. -/
theorem half2half2_apply {D : Nat} (x : Mem V) (r : Nat) {k l : Nat} (hk : k < D) (hl : l < 2) :
    half2half2 D x (2 * (r * D + k) + l) = x ((2 * r + l) * D + k) := by
  unfold half2half2
  have e : 2 * (r * D + k) + l = (2 * k + l) + (2 * D) * r := by ring
  have h1 : (2 * (r * D + k) + l) / (2 * D) = r := by
    rw [e, Nat.add_mul_div_left _ _ (by omega), Nat.div_eq_of_lt (by omega)]; omega
  have h2 : (2 * (r * D + k) + l) % (2 * D) = 2 * k + l := by
    rw [e, Nat.add_mul_mod_self_left, Nat.mod_eq_of_lt (by omega)]
  rw [h1, h2]
  have h3 : (2 * (r * D + k) + l) % 2 = l := by omega
  have h4 : (2 * k + l) / 2 = k := by omega
  rw [h3, h4]
  congr 1
  ring

theorem half22half_apply {D : Nat} (x : Mem V) (r : Nat) {k l : Nat} (hk : k < D) (hl : l < 2) :
    half22half D x ((2 * r + l) * D + k) = x (2 * (r * D + k) + l) := by
  unfold half22half
  have hlD : l * D + k < 2 * D := by
    have : l = 0 ∨ l = 1 := by omega
    rcases this with rfl | rfl <;> omega
  have e : (2 * r + l) * D + k = (l * D + k) + (2 * D) * r := by ring
  have h1 : ((2 * r + l) * D + k) / (2 * D) = r := by
    rw [e, Nat.add_mul_div_left _ _ (by omega), Nat.div_eq_of_lt hlD]; omega
  have h2 : ((2 * r + l) * D + k) % (2 * D) = l * D + k := by
    rw [e, Nat.add_mul_mod_self_left, Nat.mod_eq_of_lt hlD]
  have h3 : ((2 * r + l) * D + k) % D = k := by
    rw [Nat.add_comm, Nat.add_mul_mod_self_right, Nat.mod_eq_of_lt hk]
  have h4 : (l * D + k) / D = l := by
    rw [Nat.add_comm, Nat.add_mul_div_right _ _ (by omega), Nat.div_eq_of_lt hk]; omega
  rw [h1, h2, h3, h4]
  congr 1
  ring

/-- Component `l` of a pair. -/
def lane (l : Nat) (x : V × V) : V := if l = 0 then x.1 else x.2

theorem asHalf2_lane (x : Mem V) (p : Nat) {l : Nat} (hl : l < 2) :
    lane l (asHalf2 x p) = x (2 * p + l) := by
  have : l = 0 ∨ l = 1 := by omega
  rcases this with rfl | rfl <;> rfl

theorem ofHalf2_lane (x : Mem (V × V)) (p : Nat) {l : Nat} (hl : l < 2) :
    ofHalf2 x (2 * p + l) = lane l (x p) := by
  unfold ofHalf2 lane
  have : l = 0 ∨ l = 1 := by omega
  rcases this with rfl | rfl
  · simp
  · have h1 : (2 * p + 1) % 2 = 1 := by omega
    have h2 : (2 * p + 1) / 2 = p := by omega
    simp [h1, h2]

theorem lanes_lane (ev : (Nat → Option (Mem V)) → Mem V) (t : Nat → Option (Mem (V × V)))
    (k : Nat) {l : Nat} (hl : l < 2) :
    lane l (lanes ev t k) = ev (fun n => (t n).map (fun m k => lane l (m k))) k := by
  have : l = 0 ∨ l = 1 := by omega
  rcases this with rfl | rfl <;> rfl

theorem lane_sum [AddCommMonoid V] (l : Nat) (s : Finset Nat) (f : Nat → V × V) :
    lane l (∑ j ∈ s, f j) = ∑ j ∈ s, lane l (f j) := by
  unfold lane
  split_ifs
  · exact Prod.fst_sum
  · exact Prod.snd_sum

theorem lanes_local {vars : List VarInfo} {ev : (Nat → Option (Mem V)) → Mem V}
    (h : EvLocal vars ev) : EvLocal vars (lanes ev) := by
  intro t t' ht
  unfold lanes
  have e1 := h (fun n => (t n).map (fun m k => (m k).1)) (fun n => (t' n).map (fun m k => (m k).1))
    (fun v hv => by
      obtain ⟨m, m', h1, h2, h3⟩ := ht v hv
      exact ⟨fun k => (m k).1, fun k => (m' k).1, by rw [h1]; rfl, by rw [h2]; rfl,
        fun k hk => by simp [h3 k hk]⟩)
  have e2 := h (fun n => (t n).map (fun m k => (m k).2)) (fun n => (t' n).map (fun m k => (m k).2))
    (fun v hv => by
      obtain ⟨m, m', h1, h2, h3⟩ := ht v hv
      exact ⟨fun k => (m k).2, fun k => (m' k).2, by rw [h1]; rfl, by rw [h2]; rfl,
        fun k hk => by simp [h3 k hk]⟩)
  rw [e1, e2]

theorem halfSizes_out (tagI nx ny : Nat) :
    Spec.outRows tagI (halfSizes tagI nx ny).1 (halfSizes tagI nx ny).2 =
      (Spec.outRows tagI nx ny + 1) / 2 := by
  unfold halfSizes Spec.outRows
  dsimp only
  split_ifs <;> omega

theorem halfSizes_red (tagI nx ny : Nat) :
    Spec.redRows tagI (halfSizes tagI nx ny).1 (halfSizes tagI nx ny).2 =
      Spec.redRows tagI nx ny := by
  unfold halfSizes Spec.redRows
  dsimp only
  split_ifs <;> omega

/-- One component of one converted argument. -/
theorem halfArg_row {tagI nout nred : Nat} (ht : tagI < 2) {v : VarInfo} (hc : v.cat < 3)
    {arg a : Mem V} (h : halfArg (1 - tagI) nout nred v arg = some a) {r j l k : Nat} (hl : l < 2)
    (hr : 2 * r + l < nout) (hj : j < nred) (hk : k < v.dim) :
    lane l (asHalf2 a (Spec.row tagI r j v.cat * v.dim + k)) =
      arg (Spec.row tagI (2 * r + l) (oddRow nred (2 * j + l)) v.cat * v.dim + k) := by
  rw [asHalf2_lane _ _ hl]
  unfold halfArg at h
  unfold Spec.row
  by_cases h2 : v.cat = 2
  · simp only [h2, if_true, Option.some.injEq] at h ⊢
    subst h
    rw [half2half2_apply _ 0 hk hl]
    rw [show (2 * 0 + l) = l by omega, makeEvenSize_last _ _ hk hl]
    congr 1
    omega
  · simp only [h2, if_false] at h ⊢
    by_cases h3 : v.cat = 1 - tagI
    · have h4 : v.cat ≠ tagI := by omega
      simp only [h3, if_true, Option.map_eq_some_iff] at h
      obtain ⟨y, hy, rfl⟩ := h
      simp only [h4, if_false]
      rw [half2half2_apply _ _ hk hl, makeOddCat_row hy (by omega) hk]
    · have h4 : v.cat = tagI := by omega
      simp only [h3, if_false, Option.some.injEq] at h
      subst h
      simp only [h4, if_true]
      rw [half2half2_apply _ _ hk hl, makeEvenSize_row _ _ _ hr hk]

/-- One component of the formula on the converted arguments. -/
theorem preprocessHalf2_F {P : Problem V} (hP : WfProblem P) {H : Problem (V × V)}
    (h : preprocessHalf2 P = some H) :
    WfProblem H ∧ H.tagI = P.tagI ∧ H.M = (halfSizes P.tagI P.M P.N).1 ∧
    H.N = (halfSizes P.tagI P.M P.N).2 ∧
    ∀ r j l k, l < 2 → 2 * r + l < Spec.outRows P.tagI P.M P.N →
      j < Spec.redRows P.tagI P.M P.N →
      lane l (H.ev (Spec.env H.vars H.tagI H.args r j) k) =
        P.ev (Spec.env P.vars P.tagI P.args (2 * r + l)
          (oddRow (Spec.redRows P.tagI P.M P.N) (2 * j + l))) k := by
  unfold preprocessHalf2 at h
  dsimp only at h
  by_cases hall : (P.vars.all (fun v => (halfArg (1 - P.tagI) (if P.tagI = 0 then P.M else P.N)
      (if P.tagI = 0 then P.N else P.M) v (P.args v.ind)).isSome)) = true
  swap
  · rw [if_neg hall] at h; cases h
  rw [if_pos hall] at h
  injection h with h
  subst h
  refine ⟨⟨hP.vars, hP.tag, lanes_local hP.ev⟩, rfl, rfl, rfl, fun r j l k hl hr hj => ?_⟩
  dsimp only
  rw [lanes_lane _ _ _ hl]
  refine congrFun (hP.ev _ _ fun v hv => ?_) k
  have hf := find_ind hP.vars.nodup hv
  unfold Spec.env
  rw [hf]
  refine ⟨_, _, rfl, rfl, fun k hk => ?_⟩
  dsimp only
  rw [hf]
  have hs := List.all_eq_true.1 hall v hv
  obtain ⟨a, ha⟩ := Option.isSome_iff_exists.1 hs
  have := halfArg_row hP.tag (hP.vars.cat v hv) ha hl hr hj hk
  simp only [ha, Option.getD_some]
  exact this

/-- The call is rejected only for an empty reduction. -/
theorem preprocessHalf2_isSome {P : Problem V} (h : 0 < Spec.redRows P.tagI P.M P.N) :
    ∃ H, preprocessHalf2 P = some H := by
  unfold preprocessHalf2
  dsimp only
  rw [if_pos]
  · exact ⟨_, rfl⟩
  · rw [List.all_eq_true]
    intro v hv
    unfold halfArg makeOddCat
    unfold Spec.redRows at h
    split_ifs <;> simp_all

end Verif
