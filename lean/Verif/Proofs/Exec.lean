import Mathlib.Data.List.ProdSigma
import Verif.Model.Exec
import Verif.Proofs.Gpu1D

/-! Every execution computes correct rows. -/

namespace Verif

open Spec (EvLocal WfVars)

variable {V : Type}

/-- Well-formed calls. -/
structure WfProblem (P : Problem V) : Prop where
  vars : WfVars P.vars
  tag : P.tagI < 2
  ev : EvLocal P.vars P.ev

theorem find_ind {vars : List VarInfo} (h : (vars.map (·.ind)).Nodup) {v : VarInfo} (hv : v ∈ vars) :
    vars.find? (fun w => w.ind = v.ind) = some v := by
  induction vars with
  | nil => simp at hv
  | cons u us ih =>
    simp only [List.map_cons, List.nodup_cons] at h
    by_cases hu : u.ind = v.ind
    · have : u = v := by
        rcases List.mem_cons.mp hv with rfl | hv
        · rfl
        · exact absurd (List.mem_map.mpr ⟨v, hv, hu.symm⟩) h.1
      subst this
      simp
    · rcases List.mem_cons.mp hv with rfl | hv
      · simp at hu
      · rw [List.find?_cons]
        simp only [hu, decide_false]
        exact ih h.2 hv

theorem env_loaded {vars : List VarInfo} (hw : WfVars vars) {tagI : Nat} (ht : tagI < 2)
    (args : Nat → Mem V) (i j : Nat) :
    Loaded (varsOf vars tagI) args i (Spec.env vars tagI args i j) ∧
    Loaded (varsOf vars (1 - tagI)) args j (Spec.env vars tagI args i j) ∧
    Loaded (varsOf vars 2) args 0 (Spec.env vars tagI args i j) := by
  have key : ∀ c row, (∀ v : VarInfo, v.cat = c → Spec.row tagI i j v.cat = row) →
      Loaded (varsOf vars c) args row (Spec.env vars tagI args i j) := by
    intro c row hr v hv
    simp only [varsOf, List.mem_filter, decide_eq_true_eq] at hv
    refine ⟨fun k => args v.ind (row * v.dim + k), ?_, fun k _ => rfl⟩
    unfold Spec.env
    rw [find_ind hw.nodup hv.1, Option.map_some, hr v hv.2]
  refine ⟨key _ _ ?_, key _ _ ?_, key _ _ ?_⟩ <;> intro v hv <;> unfold Spec.row <;> rw [hv]
  · rw [if_neg (by omega), if_pos rfl]
  · rw [if_neg (by omega), if_neg (by omega)]
  · rw [if_pos rfl]

theorem ev_direct {P : Problem V} (hP : WfProblem P) (i j : Nat) :
    P.ev (directTable P.vars P.tagI P.args i j) = P.ev (Spec.env P.vars P.tagI P.args i j) :=
  ev_loaded hP.vars hP.tag hP.ev (directTable_spec hP.vars hP.tag _ i j)
    (env_loaded hP.vars hP.tag _ i j)

theorem nx_eq {P : Problem V} (hP : WfProblem P) : P.nx = Spec.outRows P.tagI P.M P.N := by
  have := hP.tag
  unfold Problem.nx launchSizes Spec.outRows
  by_cases h : P.tagI = 1
  · simp [h]
  · have : P.tagI = 0 := by omega
    simp [this]

theorem ny_eq {P : Problem V} (hP : WfProblem P) : P.ny = Spec.redRows P.tagI P.M P.N := by
  have := hP.tag
  unfold Problem.ny launchSizes Spec.redRows
  by_cases h : P.tagI = 1
  · simp [h]
  · have : P.tagI = 0 := by omega
    simp [this]

/-- The items reduced for output row `i`. -/
def rowItems (P : Problem V) (i : Nat) : List (Nat × Mem V) :=
  items (Spec.redRows P.tagI P.M P.N) (fun j => P.ev (Spec.env P.vars P.tagI P.args i j))

theorem exec_correct {E} {R : Red V} {S : Scheme V} {A B G} (h : LawfulScheme E R S A B G)
    (hf : FinLocal R) {P : Problem V} (hP : WfProblem P)
    (hne : E ∨ 0 < Spec.redRows P.tagI P.M P.N) {out out' : Mem V}
    (he : Exec R S P out out') :
    (∀ i < Spec.outRows P.tagI P.M P.N, ∃ acc, A (rowItems P i) acc ∧ ∀ k < R.dim, ∀ o,
      out' (i * R.dim + k) = R.fin acc o k) ∧
    (∀ p, Spec.outRows P.tagI P.M P.N * R.dim ≤ p → out' p = out p) := by
  have hit : ∀ i, items P.ny (fun j => P.ev (directTable P.vars P.tagI P.args i j)) =
      rowItems P i := by
    intro i
    unfold rowItems
    rw [← ny_eq hP]
    congr 1
    funext j
    exact ev_direct hP i j
  rw [← nx_eq hP]
  cases he with
  | cpu accJ tmpJ rows hrows =>
    have := cpuRows_correct h hf P.ny (by rw [ny_eq hP]; exact hne)
      (fun i j => P.ev (directTable P.vars P.tagI P.args i j)) accJ tmpJ rows
      (hrows.nodup_iff.mpr List.nodup_range) out
    refine ⟨?_, ?_⟩
    · intro i hi
      obtain ⟨acc, ha, hk⟩ := this.1 i (hrows.mem_iff.mpr (by simpa using hi))
      exact ⟨acc, by rw [← hit]; exact ha, hk⟩
    · intro p hp
      apply this.2
      intro i hi hc
      have hi' : i < P.nx := by simpa using hrows.mem_iff.mp hi
      have : (i + 1) * R.dim ≤ P.nx * R.dim := Nat.mul_le_mul_right _ hi'
      rw [Nat.succ_mul] at this
      omega
  | gpu1D Bs hB ord hord junk sched hsched =>
    have := gpu1D_correct h hf hP.vars hP.tag hP.ev hB (nx := P.nx) (ny := P.ny) P.args ord
      (fun b tile => ⟨(hord b tile).nodup_iff.mpr List.nodup_range,
        fun t ht => (hord b tile).mem_iff.mpr (by simpa using ht)⟩) junk sched
      ⟨hsched.nodup_iff.mpr (List.Nodup.product List.nodup_range List.nodup_range), by
        intro b t
        rw [hsched.mem_iff]
        simp [List.mem_product]⟩ out
    refine ⟨?_, this.2⟩
    intro i hi
    obtain ⟨acc, ha, hk⟩ := this.1 i hi
    exact ⟨acc, by rw [← hit]; exact ha, hk⟩

end Verif
