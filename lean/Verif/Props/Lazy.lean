import Verif.Proofs.LazyPass

/-!
# Lazy tensors: C26

Data and labels stay together.
-/

namespace Verif.Lazy
open Alias (Str strip formulaVars completeAliases)
open Spec (LExpr LTree PlainText Occurs varText Arg Stands)

/-! ## C26 -/

/-- **C26**. Combine arrays, numbers and symbolic variables with any operations and transpositions, and reduce the
result: the formula that is given to `Genred` is the expression written by the user in which every array is replaced
by the position at which this array is passed to the routine (counted after the symbolic variables, whose indices are
smaller and unchanged). No object is passed twice, every argument is used, and no argument plays two roles. The shapes of
the arguments are those of the arrays, after dummy batch dimensions (`Padded`).

The objects that are alive have distinct identities (`hd`) and these identities, which are addresses, are not
confused with the small numbers that replace them (`hid`). -/
theorem C26 (e : LExpr) (he : Ok e) (L : LazyT) (hL : eval e = some L) (hd : Distinct L.tensors)
    (hid : ∀ a ∈ L.tensors, newIndex L.symb + L.tensors.length ≤ a.id) :
    ∃ (T : LTree Nat) (vars : List LTensor),
      reduction L none = some (T.text (newIndex L.symb + ·), [], vars) ∧
      Stands L.nbatchdims (vars.map argOf) [e.tree] [T] ∧ (∀ s ∈ T.symbs, s < newIndex L.symb) ∧
      Padded L.nbatchdims L.tensors vars T.leaves := by
  obtain ⟨T, hT, et⟩ := eval_rel e he L hL
  obtain ⟨g, vars, h1, h2, h3⟩ := fix_stands (U := []) hT.formula rfl (by simpa using hT.plain)
    (by simpa [leavesL] using hT.cat) (by simpa [leavesL] using hT.mem) (by simpa [leavesL] using hT.typ) hd hid
  refine ⟨T.map g, vars, h1, ?_, ?_, by simpa using h3⟩
  · simpa [et] using h2
  · intro s hs
    rw [symbs_map] at hs
    exact lt_newIndex _ _ (hT.symb s hs)

/-- **C26** for a reduction with weights (`sumsoftmaxweight`, `logsumexp` with weights): both formulas use the same
positions. -/
theorem C26_weights (e w : LExpr) (he : Ok e) (hw : Ok w) (L W R : LazyT) (hL : eval e = some L)
    (hW : eval w = some W) (hR : join L W = some R) (hd : Distinct (L.tensors ++ W.tensors))
    (hid : ∀ a ∈ L.tensors ++ W.tensors, newIndex R.symb + (L.tensors ++ W.tensors).length ≤ a.id) :
    ∃ (T T' : LTree Nat) (vars : List LTensor),
      reduction L (some W) = some (T.text (newIndex R.symb + ·), T'.text (newIndex R.symb + ·), vars) ∧
      Stands R.nbatchdims (vars.map argOf) [e.tree, w.tree] [T, T'] ∧
      (∀ s ∈ T.symbs ++ T'.symbs, s < newIndex R.symb) ∧
      Padded R.nbatchdims R.tensors vars (T.leaves ++ T'.leaves) := by
  obtain ⟨T, hT, et⟩ := eval_rel e he L hL
  obtain ⟨T', hT', et'⟩ := eval_rel w hw W hW
  obtain ⟨j1, j2⟩ := join_tensors hR
  obtain ⟨g, vars, h1, h2, h3⟩ := fix_stands (L := { R with formula := L.formula }) (formula2 := W.formula) (T := T)
    (U := [T']) hT.formula (by simpa [piecesL] using hT'.formula) (by simpa using ⟨hT.plain, hT'.plain⟩)
    (by
      intro l hl
      simp only [leavesL, List.cons_append, List.nil_append, List.flatMap_cons, List.flatMap_nil, List.append_nil,
        List.mem_append] at hl
      exact hl.elim (hT.cat l) (hT'.cat l))
    (by
      intro l hl
      simp only [leavesL, List.cons_append, List.nil_append, List.flatMap_cons, List.flatMap_nil, List.append_nil,
        List.mem_append] at hl
      simp only [j1, List.mem_append]
      exact hl.imp (hT.mem l) (hT'.mem l))
    (by
      intro l hl
      simp only [leavesL, List.cons_append, List.nil_append, List.flatMap_cons, List.flatMap_nil, List.append_nil,
        List.mem_append] at hl
      exact hl.elim (hT.typ l) (hT'.typ l))
    (by simpa only [j1] using hd) (by simpa only [j1] using hid)
  refine ⟨T.map g, T'.map g, vars, ?_, ?_, ?_, by simpa [LazyT.nbatchdims] using h3⟩
  · rw [reduction, hR, Option.bind_some, h1]
    simp
  · simp only [List.cons_append, List.nil_append, List.map_cons, List.map_nil, et, et'] at h2
    exact h2
  · intro s hs
    rw [symbs_map, symbs_map, List.mem_append] at hs
    refine lt_newIndex _ _ ?_
    rw [j2, List.map_append, List.mem_append]
    exact hs.imp (hT.symb s) (hT'.symb s)

/-- The aliases made from a formula whose variables are the leaves of `T`. -/
theorem aliases_stands {nb : Nat} {args : List Arg} {T : LTree Nat} {U : List (LTree Nat)} {Us : List (LTree Nat)}
    (h : Stands nb args Us (T :: U)) (hp : ∀ T' ∈ T :: U, PlainTree T') (hs : ∀ T' ∈ T :: U, T'.symbs = [])
    (redop opt : Str) (cat : Nat) (hr : PlainText redop) (ho : PlainText opt) (ev : List (Nat × Str))
    (hev : ev.Perm (formulaVars (genredText redop (T.text id) opt cat (U.flatMap (LTree.text id)))).dedup) :
    ∃ r, completeAliases ev [] = some r ∧ r.length = args.length ∧
      ∀ p d c, (p, d, c) ∈ (T :: U).flatMap LTree.leaves → r[p]? = some (some (varText (num p) (num d) (num c))) := by
  have hocc := occurs_genred cat hr ho hp hs
  obtain ⟨r, h1, h2, h3⟩ := C25_complete_ok _ ev hev [] args.length (by
      intro p _
      rw [List.length_nil, Nat.zero_add]
      constructor
      · rintro ⟨s, hs⟩
        obtain ⟨d, c, hm, _⟩ := (hocc p s).1 hs
        obtain ⟨a, ha, _⟩ := h.shape p d c hm
        exact (List.getElem?_eq_some_iff.1 ha).1
      · intro hlt
        obtain ⟨d, c, hm⟩ := h.used p hlt
        exact ⟨_, (hocc p _).2 ⟨d, c, hm, rfl⟩⟩) (by
      intro p s t _ hs ht
      obtain ⟨d, c, hm, rfl⟩ := (hocc p s).1 hs
      obtain ⟨d', c', hm', rfl⟩ := (hocc p t).1 ht
      obtain ⟨rfl, rfl⟩ := h.single p d c d' c' hm hm'
      rfl)
  refine ⟨r, h1, by simpa using h3, ?_⟩
  intro p d c hm
  exact ((C25_complete _ ev hev [] r h1 h2).2 p _ (by simp)).2 ((hocc p _).2 ⟨d, c, hm, rfl⟩)

/-- **C26**, as seen by the routine: for a lazy tensor without symbolic variables, the list of aliases that `Genred`
makes from the formula has one entry for each argument, and the entry of an argument declares its position, its
dimension and its category. -/
theorem C26_aliases (e : LExpr) (he : Ok e) (L : LazyT) (hL : eval e = some L) (hs : L.symb = [])
    (hd : Distinct L.tensors) (hid : ∀ a ∈ L.tensors, L.tensors.length ≤ a.id) :
    ∃ (T : LTree Nat) (vars : List LTensor),
      reduction L none = some (T.text id, [], vars) ∧ Stands L.nbatchdims (vars.map argOf) [e.tree] [T] ∧
      Padded L.nbatchdims L.tensors vars T.leaves ∧
      ∀ (redop opt : Str) (cat : Nat), PlainText redop → PlainText opt →
        ∀ ev, ev.Perm (formulaVars (genredText redop (T.text id) opt cat [])).dedup →
          ∃ r, completeAliases ev [] = some r ∧ r.length = vars.length ∧
            ∀ p d c, (p, d, c) ∈ T.leaves → r[p]? = some (some (varText (num p) (num d) (num c))) := by
  have hi : newIndex L.symb = 0 := by rw [hs]; rfl
  have hpos : (fun x => newIndex L.symb + x) = (id : Nat → Nat) := by
    funext x
    rw [hi, Nat.zero_add]
    rfl
  obtain ⟨T, hT, et⟩ := eval_rel e he L hL
  obtain ⟨g, vars, h1, h2, h3⟩ := fix_stands (U := []) hT.formula rfl (by simpa using hT.plain)
    (by simpa [leavesL] using hT.cat) (by simpa [leavesL] using hT.mem) (by simpa [leavesL] using hT.typ) hd
    (by simpa [hi] using hid)
  rw [hpos] at h1
  have h2 : Stands L.nbatchdims (vars.map argOf) [e.tree] [T.map g] := by simpa [et] using h2
  refine ⟨T.map g, vars, h1, h2, by simpa using h3, ?_⟩
  intro redop opt cat hr ho ev hev
  have hsy : T.symbs = [] := by
    refine List.eq_nil_iff_forall_not_mem.2 (fun s hs' => ?_)
    have := hT.symb s hs'
    rw [hs] at this
    simp at this
  obtain ⟨r, e1, e2, e3⟩ := aliases_stands h2 (by simpa using (plainTree_map g T).2 hT.plain)
    (by simpa [symbs_map] using hsy) redop opt cat hr ho ev (by simpa using hev)
  exact ⟨r, e1, by simpa using e2, by simpa using e3⟩

/-! A case: `D = (x_i - y_j)**2` and `D + D.t()`, where `x` is `Vi(x)` and `y` is `Vj(y)`. -/

/-- `(Vi(x) - Vj(y)) ** 2`. -/
def exD : LExpr :=
  .unary ['S', 'q', 'u', 'a', 'r', 'e'] none [] (.binary ['-'] true none .sameor1 none false
    (.array 100 0 [5, 3] (some 0)) (.array 200 1 [5, 3] (some 1)))

/-- `D + D.t()`. -/
def exDt : LExpr := .binary ['+'] true none .sameor1 none false exD (.t (fun k => 300 + k) exD)

/-- The lazy tensor of `exD`. -/
def exDL : LazyT :=
  ⟨"Square((Var(100,3,0) - Var(200,3,1)))".toList, [⟨100, 0, [5, 3], false, 0⟩, ⟨200, 1, [5, 3], false, 1⟩], [], 3, none,
    some 5, some 5, none⟩

theorem eval_exD : eval exD = some exDL := by decide +kernel

theorem ok_exDt : Ok exDt := by
  have hD : Ok exD := by
    refine ⟨plainText_of_no_V (by decide +kernel), by simp, plainText_of_no_V (by decide), by simp, ?_, ?_⟩ <;> intro h <;>
      simp at h
  refine ⟨plainText_of_no_V (by decide), by simp, hD, hD, ?_⟩
  intro L hL
  rw [eval_exD] at hL
  obtain rfl := Option.some.inj hL
  refine ⟨?_, ?_, ?_, ?_⟩
  · unfold Distinct
    decide
  · intro k _ a ha
    have h : ∀ a ∈ exDL.tensors, a.id < 300 := by decide +kernel
    have := h a ha
    show 300 + k ≠ a.id
    omega
  · intro k _ k' _ h
    simpa using h
  · intro a _ s hs
    simp [exD, LExpr.tree, LTree.symbs] at hs

example : ∃ L, eval exDt = some L ∧ Distinct L.tensors ∧ L.symb = [] ∧ (∀ a ∈ L.tensors, L.tensors.length ≤ a.id) ∧
    L.tensors.length = 4 ∧
    (reduction L none).map (fun r => r.1) =
      some "(Square((Var(0,3,0) - Var(1,3,1))) + Square((Var(2,3,1) - Var(3,3,0))))".toList := by
  have : eval exDt = some ((eval exDt).getD exDL) := by decide +kernel
  refine ⟨_, this, ?_, ?_, ?_, ?_, ?_⟩
  · unfold Distinct
    decide +kernel
  · decide +kernel
  · decide +kernel
  · decide +kernel
  · decide +kernel

/-- `Vi(w)` with the array `x` again: it is passed once. -/
example : (eval exD).bind (fun L => (eval (.array 100 0 [5, 3] (some 0))).bind (fun W =>
    (reduction L (some W)).map (fun r => (r.2.1, r.2.2.length)))) = some ("Var(0,3,0)".toList, 2) := by
  decide +kernel

/-- `x.grad(v, e)` where `v` is an array that occurs neither in `x` nor in `e`. -/
def exGrad : LExpr := .deriv ['G'] (some 1) .same (.array 300 2 [2, 1] (some 0)) (.array 100 0 [2, 1] (some 0))
    (.array 200 1 [2, 1] (some 0))

/-- **Not C26** for `x.grad(v, e)` when `v` occurs neither in `x` nor in `e`: the array `v` is not passed to the routine
and the formula keeps the address of the object `v` (here 300) as the index of a variable. (The operation `Grad` is
written `G`.) The hypothesis `Ok` of `C26` excludes this case. -/
theorem not_C26_deriv : ((eval exGrad).bind (fun L => reduction L none)).map (fun r => (r.1, r.2.2.map LTensor.src)) =
    some ("G(Var(0,1,0), Var(300,1,0), Var(1,1,0))".toList, [0, 1]) := by
  decide +kernel

end Verif.Lazy
