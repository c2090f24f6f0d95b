import Verif.Spec.CodeTypes

/-!
# Types in the code of a reduction: lemmas
-/

namespace Verif.Types

/-- The same reduction of a formula of dimension 1. -/
def Red.one : Red → Red
  | .sum _ => .sum 1
  | .ext m k _ => .ext m k 1
  | .lse _ => .lse 1
  | .kmin k _ _ => .kmin k 1 1

/-- The formula is not empty. -/
def Red.Pos : Red → Prop
  | .ext _ _ d => 0 < d
  | _ => True

variable {R : Red}

theorem split_two (t : CT) (d : Nat) : (⟨t, 2 * d⟩ : Arr).split d d = .ok (⟨t, d⟩, ⟨t, d⟩) := by
  simp [Arr.split, Nat.two_mul]

theorem split_lse (t : CT) (d : Nat) : (⟨t, 1 + d⟩ : Arr).split 1 d = .ok (⟨t, 1⟩, ⟨t, d⟩) := by
  simp [Arr.split]

theorem ok_bind {α β : Type} (x : α) (f : α → M β) : (Except.ok x >>= f) = f x := rfl

theorem initialize_one (R : Red) (t : CT) : R.initialize ⟨t, R.dimred⟩ = R.one.initialize ⟨t, R.one.dimred⟩ := by
  cases R with
  | ext m k d => cases k <;> simp [Red.initialize, Red.one, Red.dimred, split_two, Arr.assign, ok_bind]
                             <;> rw [show (2 : Nat) = 2 * 1 from rfl, split_two] <;> rfl
  | lse d =>
    simp only [Red.initialize, Red.one, Red.dimred, split_lse, ok_bind]
    rfl
  | _ => simp [Red.initialize, Red.one, Red.dimred, Arr.assign]

theorem finalize_one (R : Red) (t u : CT) :
    R.finalize ⟨t, R.dimred⟩ ⟨u, R.dim⟩ = R.one.finalize ⟨t, R.one.dimred⟩ ⟨u, R.one.dim⟩ := by
  cases R with
  | ext m k d =>
    cases k with
    | arg =>
      simp only [Red.finalize, Red.one, Red.dimred, Red.dim, split_two, ok_bind]
      rfl
    | _ => rfl
  | kmin k K d => cases k <;> rfl
  | _ => rfl

theorem vectApply_one (f : CT → List CT → M Unit) {d : Nat} (t : CT) (args : List VArg)
    (h : ∀ a ∈ args, a.dim = d ∨ a.dim = 1) (hd : 0 < d ∨ ∀ a ∈ args, a.dim = d) :
    vectApply f ⟨t, d⟩ args = f t (args.map VArg.dt) := by
  have hm : ∀ (l : List VArg) (k : Nat), (∀ a ∈ l, a.dim ≤ k) → (l.map VArg.dim).foldl max k = k := by
    intro l
    induction l with
    | nil => intro k _; rfl
    | cons a l ih =>
      intro k hl
      rw [List.map_cons, List.foldl_cons, max_eq_left (hl a (by simp))]
      exact ih k fun b hb => hl b (by simp [hb])
  have hle : ∀ a ∈ args, a.dim ≤ d := by
    intro a ha
    rcases hd with hd | hd
    · rcases h a ha with h | h <;> omega
    · rw [hd a ha]
  have h1 : (d :: args.map VArg.dim).foldl max 0 = d := by
    rw [List.foldl_cons, Nat.max_eq_right (Nat.zero_le d)]
    exact hm args d hle
  unfold vectApply
  dsimp only
  rw [h1, if_neg]
  simp only [List.all_cons, List.all_map, not_not, Bool.and_eq_true, List.all_eq_true, Function.comp_apply]
  exact ⟨by simp, fun a ha => by simpa using h a ha⟩

theorem reducePair_one (h : R.Pos) (t u : CT) :
    R.reducePair ⟨t, R.dimred⟩ ⟨u, R.dimred⟩ = R.one.reducePair ⟨t, R.one.dimred⟩ ⟨u, R.one.dimred⟩ := by
  cases R with
  | sum d =>
    simp only [Red.reducePair, Red.one, Red.dimred]
    rw [vectApply_one, vectApply_one] <;> simp [VArg.dim, VArg.dt]
  | ext m k d =>
    have h : 0 < d := h
    cases k <;> simp only [Red.reducePair, Red.one, Red.dimred, split_two, ok_bind] <;>
      rw [vectApply_one, vectApply_one] <;> simp [VArg.dim, VArg.dt]
  | _ => rfl

theorem reducePairShort_one (h : R.Pos) (t u : CT) :
    R.reducePairShort ⟨t, R.dimred⟩ ⟨u, R.formulaDim⟩ =
      R.one.reducePairShort ⟨t, R.one.dimred⟩ ⟨u, R.one.formulaDim⟩ := by
  cases R with
  | sum d => exact reducePair_one (R := .sum d) h t u
  | lse d => exact reducePair_one (R := .lse d) h t u
  | ext m k d =>
    have h : 0 < d := h
    have h1 : vectApply argScalar ⟨t, d⟩ [.arr ⟨t, d⟩, .arr ⟨u, d⟩, .var .long] =
        vectApply argScalar ⟨t, 1⟩ [.arr ⟨t, 1⟩, .arr ⟨u, 1⟩, .var .long] := by
      rw [vectApply_one, vectApply_one] <;> simp [VArg.dim, VArg.dt, h]
    cases k with
    | val => exact reducePair_one (R := .ext m .val d) h t u
    | _ =>
      simp only [Red.reducePairShort, Red.reducePairShort.short, Red.one, Red.dimred, Red.formulaDim, split_two, ok_bind, h1]
  | _ => rfl

theorem kahan_one (R : Red) (t u v : CT) (d d' : Nat) :
    R.kahan ⟨t, R.dimred⟩ ⟨u, R.formulaDim⟩ ⟨v, d⟩ = R.one.kahan ⟨t, R.one.dimred⟩ ⟨u, R.one.formulaDim⟩ ⟨v, d'⟩ := by
  cases R <;> rfl

theorem pure_ok {α : Type} (x : α) : (pure x : M α) = .ok x := rfl

theorem error_bind {α β : Type} (e : Err) (f : α → M β) : ((Except.error e : M α) >>= f) = .error e := rfl

theorem throw_error {α : Type} (e : Err) : (throw e : M α) = .error e := rfl

theorem getCode_one (c : Cls) (h : R.Pos) (s : Sch) (dt dta : CT) :
    getCode c R s dt dta = getCode c R.one s dt dta := by
  cases s with
  | kahan =>
    cases R with
    | sum d =>
      have hi := initialize_one (.sum d)
      have hf := finalize_one (.sum d)
      have hr := fun t u => reducePair_one (R := .sum d) h t u
      have hk := fun t u v => kahan_one (.sum d) t u v d 1
      simp only [Red.one] at hi hf hr hk
      cases c <;>
      simp only [getCode, SchObj.new, cpuCode, cpuRangesCode, gpuCode, gpu2DCode, finalCode, SchObj.declare,
        SchObj.init, SchObj.firstInit, SchObj.blockInit, SchObj.accumulate, SchObj.periodic, SchObj.final, hi, hf, hr, hk,
        ok_bind, pure_ok, error_bind, throw_error, Red.dimKahan, Arr.assign, Red.one] <;> rfl
    | _ => cases c <;> rfl
  | _ =>
    cases c <;>
    simp only [getCode, SchObj.new, cpuCode, cpuRangesCode, gpuCode, gpu2DCode, finalCode, SchObj.declare, SchObj.init,
      SchObj.firstInit, SchObj.blockInit, SchObj.accumulate, SchObj.periodic, SchObj.final, initialize_one R,
      finalize_one R, reducePair_one h, reducePairShort_one h, ok_bind, pure_ok, error_bind, throw_error, if_true,
      if_false, Bool.false_eq_true] <;> rfl

/-- The pairs of types of the data and of the accumulators. -/
def typePairs : List (CT × CT) :=
  [(.half2, .half2), (.half2, .float2), (.float, .float), (.float, .double), (.double, .double)]

theorem sum_ok (c : Cls) (s : Sch) (d : Nat) (dt dta : CT) (hp : (dt, dta) ∈ typePairs)
    (hc : c = .cpu ∨ c = .cpuRanges → dt ≠ .half2) :
    getCode c (.sum d) s dt dta = .ok () ↔
      ((c = .gpu2D ∨ c = .finalChunks ∨ c = .rangesFinalChunks) → s = .block) ∧
      ((c = .chunks ∨ c = .rangesChunks ∨ c = .finalChunks ∨ c = .rangesFinalChunks) → dt ≠ .half2) ∧ ¬ (s = .kahan ∧ dta = .float2) := by
  rw [getCode_one c (R := .sum d) trivial]
  simp only [Red.one]
  simp only [typePairs, List.mem_cons, Prod.mk.injEq, List.not_mem_nil, or_false] at hp
  rcases hp with ⟨rfl, rfl⟩ | ⟨rfl, rfl⟩ | ⟨rfl, rfl⟩ | ⟨rfl, rfl⟩ | ⟨rfl, rfl⟩ <;>
    cases c <;> cases s <;> first | decide +kernel | (exact absurd rfl (hc (by decide)))

theorem lse_ok (c : Cls) (s : Sch) (d : Nat) (dt dta : CT) (hp : (dt, dta) ∈ typePairs)
    (hc : c = .cpu ∨ c = .cpuRanges → dt ≠ .half2) (hf : ¬ (c = .finalChunks ∨ c = .rangesFinalChunks)) :
    getCode c (.lse d) s dt dta = .ok () ↔
      s ≠ .kahan ∧ dt ≠ .half2 ∧ dta = dt ∧ (c = .gpu2D → s = .block) := by
  rw [getCode_one c (R := .lse d) trivial]
  simp only [Red.one]
  simp only [typePairs, List.mem_cons, Prod.mk.injEq, List.not_mem_nil, or_false] at hp
  rcases hp with ⟨rfl, rfl⟩ | ⟨rfl, rfl⟩ | ⟨rfl, rfl⟩ | ⟨rfl, rfl⟩ | ⟨rfl, rfl⟩ <;>
    cases c <;> cases s <;>
    first | decide +kernel | (exact absurd rfl (hc (by decide))) | (exact absurd (by decide) hf)

theorem ext_ok (c : Cls) (m : Bool) (k : Keep) (d : Nat) (hd : 0 < d) (dt : CT)
    (hp : dt = .half2 ∨ dt = .float ∨ dt = .double)
    (hc : c = .cpu ∨ c = .cpuRanges → dt ≠ .half2) (hf : ¬ (c = .finalChunks ∨ c = .rangesFinalChunks)) :
    getCode c (.ext m k d) .direct dt dt = .ok () ↔ dt ≠ .half2 ∧ c ≠ .gpu2D := by
  rw [getCode_one c (R := .ext m k d) hd]
  simp only [Red.one]
  rcases hp with rfl | rfl | rfl <;> cases c <;> cases k <;> cases m <;>
    first | decide +kernel | (exact absurd rfl (hc (by decide))) | (exact absurd (by decide) hf)

theorem kmin_ok (c : Cls) (k : Keep) (K d : Nat) (dt : CT)
    (hp : dt = .half2 ∨ dt = .float ∨ dt = .double)
    (hc : c = .cpu ∨ c = .cpuRanges → dt ≠ .half2) (hf : ¬ (c = .finalChunks ∨ c = .rangesFinalChunks)) :
    getCode c (.kmin k K d) .direct dt dt = .ok () ↔ dt ≠ .half2 ∧ c ≠ .gpu2D := by
  rw [getCode_one c (R := .kmin k K d) trivial]
  simp only [Red.one]
  rcases hp with rfl | rfl | rfl <;> cases c <;> cases k <;>
    first | decide +kernel | (exact absurd rfl (hc (by decide))) | (exact absurd (by decide) hf)

end Verif.Types
