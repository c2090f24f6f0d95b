import Verif.Proofs.RoutinesMore

/-!
# C65. Routines are independent of each other and of the lists they were made from
-/

namespace Verif.Alias

open Lazy (genredText num axis2cat)

/-- **C65**, PyTorch: the routine made from a list of aliases behaves as its formula and the content of the list when it was
made say, whatever happens later: changes of this list by the user, routines of both kinds made from the same list, or from
others. -/
theorem C65_torch {w : World} {f : Str} {ev : List (Nat × Str)} {ref : Nat} {items r : List (Option Str)}
    (hl : w.lists[ref]? = some ⟨true, items⟩) (hr : completeIn ev items = (r, true)) (acts : List Action)
    (shapes : List (List Nat)) :
    (acts.foldl World.step (w.step (.genred .torch f ev ref))).call w.objs.length shapes =
      callWith f r.length r shapes := by
  have : w.step (.genred .torch f ev ref) = w.copyBuild f ev items := by simp [World.step, hl]
  rw [this]
  exact copyBuild_call hr acts shapes

/-- **C65**, PyTorch: making a routine does not change the lists. -/
theorem C65_torch_lists {w : World} {f : Str} {ev : List (Nat × Str)} {ref k : Nat} {c : PyList}
    (h : w.lists[k]? = some c) : (w.step (.genred .torch f ev ref)).lists[k]? = some c :=
  step_keeps h trivial

/-- **C65**, `generic_sum`, `generic_logsumexp`, `generic_argkmin`, `generic_argmin`, NumPy and PyTorch: the same, for the
aliases that were given. -/
theorem C65_generic {w : World} {f : Str} {ev : List (Nat × Str)} {aliases : List Str} {r : List (Option Str)}
    (hr : completeIn ev (aliases.map some) = (r, true)) (acts : List Action) (shapes : List (List Nat)) :
    (acts.foldl World.step (w.step (.generic f ev aliases))).call w.objs.length shapes = callWith f r.length r shapes :=
  copyBuild_call hr acts shapes

/-- **C65**, NumPy: the same, if the user does not change the list afterwards, and if the routines of NumPy that are made from
this list later use only variables that are in it.

Missing: without these hypotheses the claim is false (below). -/
theorem C65_numpy_partial {w : World} {f : Str} {ev : List (Nat × Str)} {ref : Nat} {items r : List (Option Str)}
    (hl : w.lists[ref]? = some ⟨true, items⟩) (hr : completeIn ev items = (r, true)) (acts : List Action)
    (hc : ∀ l, Action.change ref l ∉ acts)
    (hg : ∀ f' ev', Action.genred .numpy f' ev' ref ∈ acts → ∀ v ∈ ev', v.1 < r.length) (shapes : List (List Nat)) :
    (acts.foldl World.step (w.step (.genred .numpy f ev ref))).call w.objs.length shapes =
      callWith f r.length r shapes := by
  have hk := (List.getElem?_eq_some_iff.mp hl).1
  have h1 : (w.step (.genred .numpy f ev ref)).objs[w.objs.length]? = some ⟨f, ref, r.length⟩ := by
    simp [World.step, hl, hr]
  have h2 : (w.step (.genred .numpy f ev ref)).lists[ref]? = some ⟨true, r⟩ := by
    simp only [World.step, hl, hr, List.getElem?_set_self hk]
  have h3 : ∀ a ∈ acts, Keeps ref ⟨true, r⟩ a := by
    intro a ha
    unfold Keeps
    split
    · intro e; subst e; exact absurd ha (hc _)
    · intro e; subst e; exact .inr (hg _ _ ha)
    · trivial
  simp [World.call, run_objs h1, run_keeps h2 h3]

/-- **C65**, NumPy: routines made later from the same list, with any formulas, cannot make a routine compute something else. A
call raises an exception, or uses the formula, the variables of the names and the sizes that the list said when the routine
was made.  `Occurs` says that the variables of a later routine are those written in its formula.

Missing: the calls that raise (`not_C65_earlier`), and changes of the list by the user (`not_C65_change`). -/
theorem C65_numpy_safe_partial {w : World} {f : Str} {ev : List (Nat × Str)} {ref : Nat} {items r : List (Option Str)}
    (hl : w.lists[ref]? = some ⟨true, items⟩) (hr : completeIn ev items = (r, true)) (acts : List Action)
    (hc : ∀ l, Action.change ref l ∉ acts)
    (hg : ∀ f' ev', Action.genred .numpy f' ev' ref ∈ acts → ∀ v ∈ ev', Spec.Occurs f' v.1 v.2)
    (shapes : List (List Nat)) :
    (acts.foldl World.step (w.step (.genred .numpy f ev ref))).call w.objs.length shapes = none ∨
    (acts.foldl World.step (w.step (.genred .numpy f ev ref))).call w.objs.length shapes =
      callWith f r.length r shapes := by
  have hk := (List.getElem?_eq_some_iff.mp hl).1
  have h1 : (w.step (.genred .numpy f ev ref)).objs[w.objs.length]? = some ⟨f, ref, r.length⟩ := by
    simp [World.step, hl, hr]
  have h2 : (w.step (.genred .numpy f ev ref)).lists[ref]? = some ⟨true, r⟩ := by
    simp only [World.step, hl, hr, List.getElem?_set_self hk]
  obtain ⟨l, hl', hgr⟩ := run_grown ⟨r, h2, Grown.refl r⟩ hc hg
  simp only [World.call, run_objs h1, hl', Option.bind_eq_bind, Option.bind_some]
  exact callWith_grown hgr shapes

/-- The list of the user, and the routines, of the counterexamples. -/
def listX : World := ⟨[⟨true, [some "x=Vi(3)".toList]⟩], []⟩

/-- `Genred("x", aliases)` and `Genred("x*Var(1,3,1)", aliases)` of NumPy. -/
def makeX : Action := .genred .numpy "Sum_Reduction(x,1)".toList [] 0
def makeXY : Action := .genred .numpy "Sum_Reduction(x*Var(1,3,1),1)".toList [(1, "Var(1,3,1)".toList)] 0

/-- **C65** does not hold for NumPy: the list of the user is changed. -/
theorem not_C65_list : (listX.step makeXY).lists.map PyList.items =
    [[some "x=Vi(3)".toList, some "Var(1,3,1)".toList]] := by decide +kernel

/-- **C65** does not hold for NumPy: a routine that works raises an exception after another routine is made. -/
theorem not_C65_earlier :
    ((listX.step makeX).call 0 [[5, 3]]).map (fun r => r.2.2) = some (5, 1) ∧
    ((listX.step makeX).step makeXY).call 0 [[5, 3]] = none := by decide +kernel

/-- **C65** does not hold for NumPy: the same text and list, after another routine, make a routine that expects another number
of arguments. -/
theorem not_C65_later :
    ((listX.step makeXY).step makeX).call 1 [[5, 3]] = none ∧
    (((listX.step makeXY).step makeX).call 1 [[5, 3], [4, 3]]).map (fun r => r.2.2) = some (5, 4) := by decide +kernel

/-- **C65** does not hold for NumPy: changes of the list by the user change the routine: here `x` becomes a variable of
dimension 1. -/
theorem not_C65_change :
    ((listX.step makeX).call 0 [[5, 3]]).map (fun r => r.2.1) = some [⟨"x".toList, 0, 3, 0⟩] ∧
    (((listX.step makeX).step (.change 0 [some "x=Vi(1)".toList])).call 0 [[5, 3]]).map (fun r => r.2.1) =
      some [⟨"x".toList, 0, 1, 0⟩] := by decide +kernel

/-- **C65**, the declared output of `generic_sum` and others: rows of the declared category remain, and the reduction is over
the other one; parameters are refused. -/
theorem C65_output (g : Generic) (formula output : Str) {d : Decl} (hd : getType output 0 = some d) :
    (d.cat < 2 → genericText g formula output =
      some (genredText g.op formula (if g = .argkmin ∧ d.dim ≠ 0 then num d.dim else []) d.cat [])) ∧
    (2 ≤ d.cat → genericText g formula output = none) := by
  refine ⟨fun h => ?_, fun h => ?_⟩
  · have : d.cat = 0 ∨ d.cat = 1 := by omega
    have e : axis2cat ((d.cat + 1) % 2) = d.cat := by unfold axis2cat; omega
    simp only [genericText, genericArgs, hd, cat2axis, this, if_true, Option.bind_eq_bind, Option.bind_some, Option.pure_def,
      Option.map_some, e]
    cases g <;> simp <;> split <;> simp_all
  · have : ¬ (d.cat = 0 ∨ d.cat = 1) := by omega
    simp [genericText, genericArgs, hd, cat2axis, this]

/-- The declared dimension is not looked at, except for `generic_argkmin`. -/
theorem C65_dimension {g : Generic} (hg : g ≠ .argkmin) (formula : Str) {o o' : Str} {d d' : Decl}
    (hd : getType o 0 = some d) (hd' : getType o' 0 = some d') (hc : d.cat = d'.cat) :
    genericText g formula o = genericText g formula o' := by
  simp [genericText, genericArgs, hd, hd', hc, hg]

/-! ## The hypotheses can be met -/

/-- With PyTorch, the routine of `x*Var(1,3,1)` expects two arguments, of sizes 5 and 4 here, whatever happens later; the list
of the user still has one entry. -/
example (acts : List Action) :
    ((acts.foldl World.step (listX.step (.genred .torch "Sum_Reduction(x*Var(1,3,1),1)".toList
      [(1, "Var(1,3,1)".toList)] 0))).call 0 [[5, 3], [4, 3]]).map (fun r => r.2.2) = some (5, 4) := by
  have := C65_torch (w := listX) (f := "Sum_Reduction(x*Var(1,3,1),1)".toList) (ev := [(1, "Var(1,3,1)".toList)]) (ref := 0)
    (items := [some "x=Vi(3)".toList]) (r := [some "x=Vi(3)".toList, some "Var(1,3,1)".toList]) rfl (by decide +kernel) acts
    [[5, 3], [4, 3]]
  rw [show listX.objs.length = 0 from rfl] at this
  rw [this]
  decide +kernel

/-- The same for `generic_sum`. -/
example (w : World) (acts : List Action) :
    ((acts.foldl World.step (w.step (.generic "Sum_Reduction(x*y,0)".toList [] ["x=Vi(3)".toList, "y=Vj(3)".toList]))).call
      w.objs.length [[5, 3], [4, 3]]).map (fun r => r.2.2) = some (5, 4) := by
  rw [C65_generic (r := [some "x=Vi(3)".toList, some "y=Vj(3)".toList]) (by decide +kernel)]
  decide +kernel

/-- With NumPy, for two routines made from the same list, that use only the names of the list. -/
example : ((((listX.step makeX).step makeX).step (.genred .torch "Sum_Reduction(x*Var(1,3,1),1)".toList
    [(1, "Var(1,3,1)".toList)] 0)).call 0 [[5, 3]]).map (fun r => r.2.2) = some (5, 1) := by
  have := C65_numpy_partial (w := listX) (f := "Sum_Reduction(x,1)".toList) (ev := []) (ref := 0)
    (items := [some "x=Vi(3)".toList]) (r := [some "x=Vi(3)".toList]) rfl (by decide +kernel)
    [makeX, .genred .torch "Sum_Reduction(x*Var(1,3,1),1)".toList [(1, "Var(1,3,1)".toList)] 0]
    (by simp [makeX]) (by simp [makeX]) [[5, 3]]
  simp only [List.foldl_cons, List.foldl_nil] at this
  rw [show listX.objs.length = 0 from rfl, show listX.step (.genred .numpy "Sum_Reduction(x,1)".toList [] 0) =
    listX.step makeX from rfl] at this
  rw [this]
  decide +kernel

/-- With NumPy, for the routines of `x*y` and of `x*y*Var(2,1,2)` made from the same list: the first one still gives its value,
although the list has a third entry. -/
example :
    let w : World := ⟨[⟨true, [some "x=Vi(3)".toList, some "y=Vj(3)".toList]⟩], []⟩
    let first : Action := .genred .numpy "Sum_Reduction(x*y,0)".toList [] 0
    let later : Action := .genred .numpy "Sum_Reduction(x*y*Var(2,1,2),0)".toList [(2, "Var(2,1,2)".toList)] 0
    (((w.step first).step later).call 0 [[5, 3], [4, 3]] = none ∨
      ((w.step first).step later).call 0 [[5, 3], [4, 3]] =
        callWith "Sum_Reduction(x*y,0)".toList 2 [some "x=Vi(3)".toList, some "y=Vj(3)".toList] [[5, 3], [4, 3]]) ∧
    ((w.step first).step later).lists.map (fun l => l.items.length) = [3] ∧
    (((w.step first).step later).call 0 [[5, 3], [4, 3]]).map (fun r => r.2.2) = some (5, 4) := by
  intro w first later
  refine ⟨?_, by decide +kernel, by decide +kernel⟩
  refine C65_numpy_safe_partial (w := w) (f := "Sum_Reduction(x*y,0)".toList) (ev := []) (ref := 0)
    (items := [some "x=Vi(3)".toList, some "y=Vj(3)".toList]) (r := [some "x=Vi(3)".toList, some "y=Vj(3)".toList]) rfl
    (by decide +kernel) [later] (by simp [later]) ?_ [[5, 3], [4, 3]]
  intro f' ev' h v hv
  simp only [List.mem_cons, List.not_mem_nil, or_false, later, Action.genred.injEq] at h
  obtain ⟨-, rfl, rfl, -⟩ := h
  simp only [List.mem_cons, List.not_mem_nil, or_false] at hv
  subst hv
  exact (mem_formulaVars _ _ _).1 (by decide +kernel)

/-- `generic_argkmin("SqDist(x,y)", "a = Vi(3)", …)`. -/
example : genericText .argkmin "SqDist(x,y)".toList "a = Vi(3)".toList = some "ArgKMin_Reduction(SqDist(x,y),3,0)".toList ∧
    genericText .sum "x*y".toList "a = Vj(2)".toList = some "Sum_Reduction(x*y,1)".toList ∧
    genericText .sum "x*y".toList "a = Pm(2)".toList = none := by decide +kernel

end Verif.Alias
