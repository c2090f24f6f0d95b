import Verif.Model.Postprocess
import Verif.Props.Reductions

/-!
# C39: layout of the multi-output reductions after post-processing

`arr.at2 d l k` is the entry of index `(l, k)` of an array of trailing shape `(K, d)`.
The announced shape is `(K, d)`, or `(K)` when `d = 1`.
-/

namespace Verif

open Spec (outRows redRows)

def Arr.at2 {V : Type} (a : Arr V) (d l k : Nat) : V := a.get (l * d + k)

/-- Announced trailing shape of a K-min output. -/
def kShape (K d : Nat) : List Nat := if d = 1 then [K] else [K, d]

theorem squeezeLast_shape {V : Type} (K d : Nat) (m : Mem V) :
    (Arr.squeezeLast ⟨[K, d], m⟩).shape = kShape K d ∧
    (Arr.squeezeLast ⟨[K, d], m⟩).get = m := by
  unfold Arr.squeezeLast kShape
  by_cases h : d = 1
  · subst h; simp
  · simp [h]

theorem C39_kmin (V : Type) [LinearOrder V] [OrderTop V] (cast : Nat → V) (n : PostNum V)
    (d K : Nat) (hK : 0 < K) (sch : SumScheme) (hsch : sch ≠ .kahan) :
    ∃ S, getScheme (kminRed cast d K) sch = some S ∧
      ∀ (P : Problem V), WfProblem P →
      ∀ out out', Exec (kminRed cast d K) S P out out' →
        ∀ i < outRows P.tagI P.M P.N,
        ∃ arr, postprocess n .kMin K (K * d) (out'.shift (i * (K * d))) = some [arr] ∧
          arr.shape = kShape K d ∧ ∀ k < d,
          ∃ s, IsSortedList (redRows P.tagI P.M P.N) (fun j => F P i j k) s ∧ ∀ l < K,
            arr.at2 d l k = (entry s l).1 := by
  obtain ⟨S, hS, h⟩ := C12_kmin V cast d K sch hsch
  refine ⟨S, hS, fun P hP out out' he i hi => ?_⟩
  have h1 : K ≠ 0 ∧ K * d % K = 0 := ⟨by omega, Nat.mul_mod_right K d⟩
  have h2 : K * d / K = d := Nat.mul_div_cancel_left d hK
  unfold postprocess
  simp only [h1, h2, ne_eq, not_false_eq_true, and_self, if_true]
  refine ⟨_, rfl, (squeezeLast_shape ..).1, fun k hk => ?_⟩
  obtain ⟨s, hs, hl⟩ := h P hP out out' he i hi k hk
  refine ⟨s, hs, fun l hlK => ?_⟩
  unfold Arr.at2
  rw [(squeezeLast_shape ..).2, ← hl l hlK, Nat.add_comm k]
  rfl

theorem C39_argkmin (V : Type) [LinearOrder V] [OrderTop V] (cast : Nat → V) (n : PostNum V)
    (d K : Nat) (hK : 0 < K) (sch : SumScheme) (hsch : sch ≠ .kahan) :
    ∃ S, getScheme (argKminRed cast d K) sch = some S ∧
      ∀ (P : Problem V), WfProblem P →
      ∀ out out', Exec (argKminRed cast d K) S P out out' →
        ∀ i < outRows P.tagI P.M P.N,
        ∃ arr, postprocess n .argKMin K (K * d) (out'.shift (i * (K * d))) = some [arr] ∧
          arr.shape = kShape K d ∧ ∀ k < d,
          ∃ s, IsSortedList (redRows P.tagI P.M P.N) (fun j => F P i j k) s ∧ ∀ l < K,
            arr.at2 d l k = n.long (cast (entry s l).2) := by
  obtain ⟨S, hS, h⟩ := C12_argkmin V cast d K sch hsch
  refine ⟨S, hS, fun P hP out out' he i hi => ?_⟩
  have h1 : K ≠ 0 ∧ K * d % K = 0 := ⟨by omega, Nat.mul_mod_right K d⟩
  have h2 : K * d / K = d := Nat.mul_div_cancel_left d hK
  unfold postprocess
  simp only [h1, h2, ne_eq, not_false_eq_true, and_self, if_true]
  refine ⟨_, rfl, (squeezeLast_shape ..).1, fun k hk => ?_⟩
  obtain ⟨s, hs, hl⟩ := h P hP out out' he i hi k hk
  refine ⟨s, hs, fun l hlK => ?_⟩
  unfold Arr.at2
  rw [(squeezeLast_shape ..).2, ← hl l hlK, Nat.add_comm k]
  rfl

theorem C39_kmin_argkmin (V : Type) [LinearOrder V] [OrderTop V] (cast : Nat → V) (n : PostNum V)
    (d K : Nat) (hK : 0 < K) (sch : SumScheme) (hsch : sch ≠ .kahan) :
    ∃ S, getScheme (kminArgKminRed cast d K) sch = some S ∧
      ∀ (P : Problem V), WfProblem P →
      ∀ out out', Exec (kminArgKminRed cast d K) S P out out' →
        ∀ i < outRows P.tagI P.M P.N,
        ∃ vals inds, postprocess n .kMinArgKMin K (2 * K * d) (out'.shift (i * (2 * K * d))) =
            some [vals, inds] ∧
          vals.shape = kShape K d ∧ inds.shape = kShape K d ∧ ∀ k < d,
          ∃ s, IsSortedList (redRows P.tagI P.M P.N) (fun j => F P i j k) s ∧ ∀ l < K,
            vals.at2 d l k = (entry s l).1 ∧ inds.at2 d l k = n.long (cast (entry s l).2) := by
  obtain ⟨S, hS, h⟩ := C12_kmin_argkmin V cast d K sch hsch
  refine ⟨S, hS, fun P hP out out' he i hi => ?_⟩
  have h1 : K ≠ 0 ∧ 2 * K * d % (2 * K) = 0 := ⟨by omega, Nat.mul_mod_right _ d⟩
  have h2 : 2 * K * d / (2 * K) = d := Nat.mul_div_cancel_left d (by omega)
  unfold postprocess
  simp only [h1, h2, ne_eq, not_false_eq_true, and_self, if_true]
  refine ⟨_, _, rfl, (squeezeLast_shape ..).1, (squeezeLast_shape ..).1, fun k hk => ?_⟩
  obtain ⟨s, hs, hl⟩ := h P hP out out' he i hi k hk
  refine ⟨s, hs, fun l hlK => ?_⟩
  unfold Arr.at2
  have e1 : (l * d + k) / d = l := by
    rw [Nat.add_comm, Nat.add_mul_div_right _ _ (by omega), Nat.div_eq_of_lt hk, Nat.zero_add]
  have e2 : (l * d + k) % d = k := by
    rw [Nat.add_comm, Nat.add_mul_mod_self_right, Nat.mod_eq_of_lt hk]
  rw [(squeezeLast_shape ..).2, (squeezeLast_shape ..).2, ← (hl l hlK).1, ← (hl l hlK).2, e1, e2]
  constructor
  · rw [Nat.add_comm k]; rfl
  · rw [show k + l * (2 * d) + d = l * (2 * d) + d + k by omega]; rfl

theorem C39_min_argmin (V : Type) [LinearOrder V] [OrderTop V] (cast : Nat → V) (n : PostNum V)
    (d : Nat) :
    ∃ S, getScheme (minArgMinRed cast d) .direct = some S ∧
      ∀ (P : Problem V), WfProblem P → 0 < redRows P.tagI P.M P.N →
      ∀ out out', Exec (minArgMinRed cast d) S P out out' →
        ∀ i < outRows P.tagI P.M P.N,
        ∃ vals inds, postprocess n .minArgMin 0 (2 * d) (out'.shift (i * (2 * d))) =
            some [vals, inds] ∧ vals.shape = [d] ∧ inds.shape = [d] ∧ ∀ k < d,
          ∃ j, IsFirstMin (redRows P.tagI P.M P.N) (fun j => F P i j k) j ∧
            vals.get k = F P i j k ∧ inds.get k = n.long (cast j) := by
  obtain ⟨S, hS, h⟩ := C11_min_argmin V cast d
  refine ⟨S, hS, fun P hP hne out out' he i hi => ?_⟩
  have h1 : 2 * d % 2 = 0 := Nat.mul_mod_right _ d
  have h2 : 2 * d / 2 = d := Nat.mul_div_cancel_left d (by omega)
  unfold postprocess
  simp only [h1, h2, if_true]
  refine ⟨_, _, rfl, rfl, rfl, fun k hk => ?_⟩
  obtain ⟨j, hj, hv, hi'⟩ := h P hP hne out out' he i hi k hk
  exact ⟨j, hj, hv, congrArg n.long hi'⟩

theorem C39_max_argmax (V : Type) [LinearOrder V] [OrderBot V] (cast : Nat → V) (n : PostNum V)
    (d : Nat) :
    ∃ S, getScheme (maxArgMaxRed cast d) .direct = some S ∧
      ∀ (P : Problem V), WfProblem P → 0 < redRows P.tagI P.M P.N →
      ∀ out out', Exec (maxArgMaxRed cast d) S P out out' →
        ∀ i < outRows P.tagI P.M P.N,
        ∃ vals inds, postprocess n .maxArgMax 0 (2 * d) (out'.shift (i * (2 * d))) =
            some [vals, inds] ∧ vals.shape = [d] ∧ inds.shape = [d] ∧ ∀ k < d,
          ∃ j, IsFirstMax (redRows P.tagI P.M P.N) (fun j => F P i j k) j ∧
            vals.get k = F P i j k ∧ inds.get k = n.long (cast j) := by
  obtain ⟨S, hS, h⟩ := C11_max_argmax V cast d
  refine ⟨S, hS, fun P hP hne out out' he i hi => ?_⟩
  have h1 : 2 * d % 2 = 0 := Nat.mul_mod_right _ d
  have h2 : 2 * d / 2 = d := Nat.mul_div_cancel_left d (by omega)
  unfold postprocess
  simp only [h1, h2, if_true]
  refine ⟨_, _, rfl, rfl, rfl, fun k hk => ?_⟩
  obtain ⟨j, hj, hv, hi'⟩ := h P hP hne out out' he i hi k hk
  exact ⟨j, hj, hv, congrArg n.long hi'⟩

/-- `K = 0` is not accepted by the post-processing. -/
theorem C39_K_zero {V : Type} (n : PostNum V) (out : Mem V) (dim : Nat) :
    postprocess n .kMin 0 dim out = none ∧ postprocess n .argKMin 0 dim out = none ∧
    postprocess n .kMinArgKMin 0 dim out = none := ⟨rfl, rfl, rfl⟩

/-- A concrete layout: `K = 2`, `d = 3`. -/
example (n : PostNum Nat) : ∃ v w, postprocess n .kMinArgKMin 2 12 (fun k => k) = some [v, w] ∧
    v.shape = [2, 3] ∧ v.at2 3 1 2 = 8 ∧ w.at2 3 1 2 = n.long 11 := by
  refine ⟨_, _, rfl, ?_, ?_, ?_⟩ <;> rfl

end Verif
