import Verif.Proofs.Call
import Verif.Props.Reductions
import Mathlib.Tactic.Ring

/-!
# C24: sizes of the arguments of a call

A call with compatible arguments is accepted, finds the right sizes, gives the right output shape and reads
only the entries of its arguments.  The converse is false: apart from the number of arguments nothing is
rejected.
-/

namespace Verif
open Alias Spec

/-- C24, compatible arguments. Each alias declares an argument whose shape is: batch dimensions that can be
broadcast to `A`, then `M` (for `Vi`) or `N` (for `Vj`), then the announced dimension. The call is accepted,
the sizes are `M` and `N` (1 if there is no such variable) and the shape of the output is `A`, the number of
rows and the dimension of the formula. Missing for C24: the calls that are not compatible should be
rejected, see `not_C24_rows`. -/
theorem C24_accepts_partial (as : List Str) (shapes : List (List Nat)) (A : List Nat) (M N tagI dimout : Nat)
    (hlen : shapes.length = as.length) (hA : ∀ a ∈ A, 0 < a)
    (hfit : ∀ k text, as[k]? = some text → ∃ cat dim pos sh, Declares text k cat dim pos ∧
      shapes[pos]? = some sh ∧ Fits A M N cat dim sh)
    (hcover : ∀ p sh, shapes[p]? = some sh → ∃ k text cat dim, as[k]? = some text ∧
      Declares text k cat dim p)
    (hfull : ∀ d < A.length, ∃ sh ∈ shapes, sh[d]? = A[d]? ∧ d + 1 < sh.length)
    (hvar : ∃ k text cat dim pos, as[k]? = some text ∧ Declares text k cat dim pos ∧ cat < 2) :
    ∃ nx ny, callGenred as shapes tagI dimout =
        some (nx, ny, A ++ [if tagI = 0 then nx else ny, dimout]) ∧
      ((∃ k text dim pos, as[k]? = some text ∧ Declares text k 0 dim pos) → nx = M) ∧
      ((¬ ∃ k text dim pos, as[k]? = some text ∧ Declares text k 0 dim pos) → nx = 1) ∧
      ((∃ k text dim pos, as[k]? = some text ∧ Declares text k 1 dim pos) → ny = N) ∧
      ((¬ ∃ k text dim pos, as[k]? = some text ∧ Declares text k 1 dim pos) → ny = 1) := by
  obtain ⟨cx, cy, e, h1, h2⟩ := getSizesFrom_fits shapes A M N as 0 false false (by simp)
    (by simpa using hfit)
  simp only [Bool.false_eq_true, if_false, false_or, Nat.zero_add] at e h1 h2
  have hall : ∀ sh ∈ shapes, ∃ cat dim, Fits A M N cat dim sh := by
    intro sh hsh
    obtain ⟨p, hp, rfl⟩ := List.mem_iff_getElem.1 hsh
    obtain ⟨k, text, cat, dim, hk, hD⟩ := hcover p _ (List.getElem?_eq_getElem hp)
    obtain ⟨cat', dim', pos, sh, hD', hs, hf⟩ := hfit k text hk
    obtain ⟨rfl, rfl, rfl⟩ := declares_unique hD hD'
    rw [List.getElem?_eq_getElem hp] at hs
    cases hs
    exact ⟨_, _, hf⟩
  have hlenA : ∀ b, BroadcastsTo b A → b.length = A.length := fun b hb => List.Forall₂.length_eq hb
  have hnb : (shapes.map List.length).foldl max 0 = A.length + 2 := by
    refine foldl_max_eq _ _ _ ?_ (by omega) (.inr ?_)
    · intro x hx
      obtain ⟨sh, hsh, rfl⟩ := List.mem_map.1 hx
      obtain ⟨cat, dim, b, hb, rfl⟩ := hall sh hsh
      have := hlenA b hb
      split_ifs <;> simp [this]
    · obtain ⟨k, text, cat, dim, pos, hk, hD, hc⟩ := hvar
      obtain ⟨cat', dim', pos', sh, hD', hs, b, hb, rfl⟩ := hfit k text hk
      obtain ⟨rfl, rfl, rfl⟩ := declares_unique hD hD'
      refine List.mem_map.2 ⟨_, List.mem_of_getElem? hs, ?_⟩
      have := hlenA b hb
      interval_cases cat <;> simp [this]
  have htake : ∀ sh ∈ shapes, BroadcastsTo (sh.take A.length) A := by
    intro sh hsh
    obtain ⟨cat, dim, b, hb, rfl⟩ := hall sh hsh
    rw [← hlenA b hb, List.take_left]
    exact hb
  have hshape : ∀ R, shapeOutPy shapes A.length R dimout = A ++ [R, dimout] := by
    intro R
    unfold shapeOutPy
    split_ifs with h0
    · congr 1
      cases hsh : shapes with
      | nil =>
        obtain ⟨sh, hm, _⟩ := hfull 0 (by omega)
        rw [hsh] at hm
        cases hm
      | cons s ss =>
        rw [hsh] at htake
        simp only [List.map_cons]
        obtain ⟨f1, f2⟩ := foldl_max_broadcast hA (ss.map (fun s => s.take A.length)) (s.take A.length)
          (htake s (by simp)) (by
            intro c hc
            obtain ⟨t, ht, rfl⟩ := List.mem_map.1 hc
            exact htake t (by simp [ht]))
        refine List.ext_getElem? (fun i => ?_)
        by_cases hi : i < A.length
        · refine f2 i ?_
          obtain ⟨sh, hm, hd, -⟩ := hfull i hi
          rw [hsh] at hm
          refine ⟨sh.take A.length, ?_, ?_⟩
          · rw [← List.map_cons (f := fun s : List Nat => s.take A.length)]
            exact List.mem_map.2 ⟨sh, hm, rfl⟩
          · rw [List.getElem?_take, if_pos hi, hd]
        · rw [List.getElem?_eq_none (by rw [hlenA _ f1]; omega), List.getElem?_eq_none (by omega)]
    · have : A = [] := List.length_eq_zero_iff.1 (by omega)
      simp [this]
  refine ⟨if cx then M else 1, if cy then N else 1, ?_, ?_, ?_, ?_, ?_⟩
  · unfold callGenred getSizes
    rw [if_neg (by omega), e]
    simp only [hnb, Nat.add_sub_cancel, hshape]
  · intro h
    rw [if_pos (h1.2 h)]
  · intro h
    rw [if_neg (fun hc => h (h1.1 hc))]
  · intro h
    rw [if_pos (h2.2 h)]
  · intro h
    rw [if_neg (fun hc => h (h2.1 hc))]

/-- C24. The number of arguments is checked. -/
theorem C24_nargs (as : List Str) (shapes : List (List Nat)) (tagI dimout : Nat)
    (h : shapes.length ≠ as.length) : callGenred as shapes tagI dimout = none := by
  unfold callGenred
  rw [if_pos h]

/-- Number of entries of the argument of a variable: rows times dimension. -/
def Spec.entries (M N : Nat) (v : VarInfo) : Nat :=
  (if v.cat = 0 then M else if v.cat = 1 then N else 1) * v.dim

/-- C24. For compatible arguments without batch dimensions the sums depend only on the entries of the
arguments: nothing is read outside of the arrays. -/
theorem C24_reads_partial (V : Type) [AddCommGroup V] (d : Nat) (sch : SumScheme) :
    ∃ S, getScheme (sumRed (V := V) d) sch = some S ∧
      ∀ (P P' : Problem V), WfProblem P → P' = { P with args := P'.args } →
        (∀ v ∈ P.vars, ∀ q < entries P.M P.N v, P.args v.ind q = P'.args v.ind q) →
        ∀ out out₁ out₂, Exec (sumRed d) S P out out₁ → Exec (sumRed d) S P' out out₂ → out₁ = out₂ := by
  obtain ⟨S, hS, hsum⟩ := C09_sum V d sch
  refine ⟨S, hS, fun P P' hP hP' hag out o₁ o₂ h₁ h₂ => ?_⟩
  have e1 : P'.ev = P.ev := by rw [hP']
  have e2 : P'.vars = P.vars := by rw [hP']
  have e3 : P'.tagI = P.tagI := by rw [hP']
  have e4 : P'.M = P.M := by rw [hP']
  have e5 : P'.N = P.N := by rw [hP']
  have hwf : WfProblem P' := by
    obtain ⟨w1, w2, w3⟩ := hP
    exact ⟨by rw [e2]; exact w1, by rw [e3]; exact w2, by rw [e2, e1]; exact w3⟩
  obtain ⟨a1, a2⟩ := hsum P hP out o₁ h₁
  obtain ⟨b1, b2⟩ := hsum P' hwf out o₂ h₂
  rw [e3, e4, e5] at b1 b2
  have hF : ∀ i < outRows P.tagI P.M P.N, ∀ j < redRows P.tagI P.M P.N, F P' i j = F P i j := by
    intro i hi j hj
    unfold F
    rw [e1, e2, e3]
    refine hP.ev _ _ ?_
    intro v hv
    refine ⟨fun k => P'.args v.ind (row P.tagI i j v.cat * v.dim + k),
      fun k => P.args v.ind (row P.tagI i j v.cat * v.dim + k), ?_, ?_, fun k hk => (hag v hv _ ?_).symm⟩
    · unfold env
      rw [find_ind hP.vars.nodup hv]
      rfl
    · unfold env
      rw [find_ind hP.vars.nodup hv]
      rfl
    · have hcat := hP.vars.cat v hv
      have ht := hP.tag
      have hrow : row P.tagI i j v.cat < (if v.cat = 0 then P.M else if v.cat = 1 then P.N else 1) := by
        unfold row outRows redRows at *
        split_ifs at * <;> omega
      unfold entries
      calc row P.tagI i j v.cat * v.dim + k < row P.tagI i j v.cat * v.dim + v.dim := by omega
        _ = (row P.tagI i j v.cat + 1) * v.dim := by ring
        _ ≤ _ := Nat.mul_le_mul_right _ hrow
  funext p
  by_cases hp : p < outRows P.tagI P.M P.N * d
  · have hd : 0 < d := by
      rcases Nat.eq_zero_or_pos d with rfl | h
      · simp at hp
      · exact h
    have hdiv : p / d < outRows P.tagI P.M P.N := Nat.div_lt_of_lt_mul (by rwa [Nat.mul_comm] at hp)
    have hmod : p % d < d := Nat.mod_lt _ hd
    have hpe : p / d * d + p % d = p := Nat.div_add_mod' p d
    rw [← hpe, a1 _ hdiv _ hmod, b1 _ hdiv _ hmod]
    refine Finset.sum_congr rfl (fun j hj => ?_)
    rw [hF _ hdiv _ (Finset.mem_range.1 hj)]
  · rw [a2 p (by omega), b2 p (by omega)]

/-- The sum over `j` of `b_i`, with variables `x`, `y` and `b`. -/
def exMismatch (b : Mem Int) : Problem Int where
  ev := fun t => fun k => if k = 0 then
    match t 2 with
    | some b => b 0
    | _ => 0
    else 0
  vars := [⟨0, 1, 0⟩, ⟨1, 1, 1⟩, ⟨2, 1, 0⟩]
  tagI := 0
  M := 2
  N := 2
  args := fun a => if a = 2 then b else fun _ => 0

theorem exMismatch_wf (b : Mem Int) : WfProblem (exMismatch b) where
  vars := ⟨by simp [exMismatch], by simp [exMismatch]⟩
  ev := by
    intro t t' h
    obtain ⟨y, y', h3, h4, hy⟩ := h ⟨2, 1, 0⟩ (by simp [exMismatch])
    simp only [exMismatch]
    simp only at h3 h4 hy
    rw [h3, h4]
    simp only [hy 0 (by omega)]
  tag := by simp [exMismatch]

/-- **Negation of C24**: two arrays `x` of 2 rows and `b` of 1 row, both indexed by `i`, are accepted, with
`nx = 2`; the result then depends on what is in memory after the array `b`. -/
theorem not_C24_rows :
    callGenred ["x=Vi(1)".toList, "y=Vj(1)".toList, "b=Vi(1)".toList] [[2, 1], [2, 1], [1, 1]] 0 1 =
      some ((exMismatch fun _ => 0).M, (exMismatch fun _ => 0).N, [2, 1]) ∧
    ∃ S b b' out₁ out₂, getScheme (sumRed (V := Int) 1) .direct = some S ∧ (∀ q < 1, b q = b' q) ∧
      Exec (sumRed 1) S (exMismatch b) (fun _ => 0) out₁ ∧
      Exec (sumRed 1) S (exMismatch b') (fun _ => 0) out₂ ∧ out₁ 1 ≠ out₂ 1 := by
  refine ⟨by decide +kernel, ?_⟩
  obtain ⟨S, hS, hsum⟩ := C09_sum Int 1 .direct
  obtain ⟨o₁, h₁⟩ := exec_exists_cpu (sumRed 1) S (exMismatch fun _ => 0) (fun _ => 0)
  obtain ⟨o₂, h₂⟩ := exec_exists_cpu (sumRed 1) S (exMismatch fun q => (q : Int)) (fun _ => 0)
  refine ⟨S, _, _, o₁, o₂, hS, ?_, h₁, h₂, ?_⟩
  · intro q hq
    have : q = 0 := by omega
    subst this
    rfl
  · have e1 := (hsum _ (exMismatch_wf _) _ _ h₁).1 1 (by decide) 0 (by decide)
    have e2 := (hsum _ (exMismatch_wf _) _ _ h₂).1 1 (by decide) 0 (by decide)
    simp only [Nat.mul_one, Nat.add_zero] at e1 e2
    rw [e1, e2]
    decide

/-- **Negation of C24**: wrong dimensions and incompatible batch sizes are accepted as well. -/
theorem not_C24_dims :
    callGenred ["x=Vi(3)".toList, "y=Vj(3)".toList] [[2, 1], [4, 5]] 0 1 = some (2, 4, [2, 1]) ∧
    callGenred ["x=Vi(3)".toList, "y=Vj(3)".toList] [[2, 5, 3], [3, 4, 3]] 0 1 =
      some (5, 4, [3, 5, 1]) := by
  decide +kernel

/-- A call with batch dimensions `(2, 3)`. -/
example : callGenred ["x=Vi(3)".toList, "y = Vj(3)".toList, "Var(2,1,2)".toList]
    [[2, 1, 5, 3], [1, 3, 4, 3], [1, 1, 1]] 0 1 = some (5, 4, [2, 3, 5, 1]) := by decide +kernel

example : Declares "Var(2,1,2)".toList 2 2 1 2 ∧ Fits [2, 3] 5 4 2 1 [1, 1, 1] ∧
    Declares "y = Vj(3)".toList 1 1 3 1 ∧ Fits [2, 3] 5 4 1 3 [1, 3, 4, 3] := by
  refine ⟨.inr ⟨['2'], ['1'], ['2'], ?_, ?_, ?_, ?_, ?_, ?_, ?_⟩, ⟨[1, 1], ?_, rfl⟩,
    .inl ⟨['y'], none, ⟨⟨by decide, 'y', by decide⟩, by decide, by decide +kernel⟩, rfl⟩,
    ⟨[1, 3], ?_, rfl⟩⟩
  · exact ⟨by decide, by decide⟩
  · exact ⟨by decide, by decide⟩
  · exact ⟨by decide, by decide⟩
  · decide +kernel
  · decide
  · decide
  · decide
  · exact .cons (.inr rfl) (.cons (.inr rfl) .nil)
  · exact .cons (.inr rfl) (.cons (.inl rfl) .nil)

end Verif
