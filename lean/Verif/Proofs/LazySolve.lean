import Verif.Model.LazySolve
import Verif.Props.MethodsRed
import Verif.Props.Cg

/-!
# Linear systems written with lazy tensors: lemmas
-/

namespace Verif.Lazy
open Alias (Str)
open Spec (LExpr LTree PyE rowIJ Stands outRows redRows)
open Parse

/-! ## The position of the unknown -/

theorem replace_varsymb (ind dim cat : Nat) (h : cat < 2) :
    replaceStr "VarSymb".toList "Var".toList (mkSymb ind dim cat).formula =
      formatVar "Var".toList ind dim (num cat) := by
  have hq : ∀ s : Str, (∀ c ∈ s, c ≠ 'V') →
      subAll (fun u => if "VarSymb".toList.isPrefixOf u then some ("Var".toList, "VarSymb".toList.length) else none) 0 s =
        s := by
    intro s hs
    induction s with
    | nil => rfl
    | cons c s ih =>
      rw [subAll]
      have hc : c ≠ 'V' := hs c (by simp)
      have : ("VarSymb".toList.isPrefixOf (c :: s)) = false := by
        have e : "VarSymb".toList = 'V' :: "arSymb".toList := by decide +kernel
        rw [e]
        simp [List.isPrefixOf, Ne.symm hc]
      simp only [this, Bool.false_eq_true, if_false]
      rw [ih fun c hc => hs c (by simp [hc])]
  have hd : ∀ n : Nat, ∀ c ∈ num n, c ≠ 'V' := by
    intro n c hc e
    have := isDigit_num hc
    rw [e] at this
    exact absurd this (by decide)
  have e1 : "VarSymb".toList = ['V', 'a', 'r', 'S', 'y', 'm', 'b'] := by decide +kernel
  have e2 : "Var".toList = ['V', 'a', 'r'] := by decide +kernel
  have := hq ('(' :: (num ind ++ ',' :: (num dim ++ ',' :: (num cat ++ [')'])))) (by
    intro c hc
    simp only [List.mem_cons, List.mem_append, List.not_mem_nil, or_false] at hc
    rcases hc with rfl | hc | rfl | hc | rfl | hc | rfl
    · decide
    · exact hd _ c hc
    · decide
    · exact hd _ c hc
    · decide
    · exact hd _ c hc
    · decide)
  have hstep : ∀ w : Str, replaceStr "VarSymb".toList "Var".toList ("VarSymb".toList ++ w) =
      "Var".toList ++ replaceStr "VarSymb".toList "Var".toList w := by
    intro w
    rw [e1, e2]
    rfl
  unfold mkSymb formatVar
  simp only [List.append_assoc, List.cons_append]
  rw [hstep]
  exact congrArg _ this

theorem varinv_var (al : List Str) (ind dim : Nat) (c : Str) :
    varinvPos al (some (formatVar "Var".toList ind dim c)) = some ind := by
  have e2 : "Var".toList = ['V', 'a', 'r'] := by decide +kernel
  have e3 : "Var(".toList = ['V', 'a', 'r', '('] := by decide +kernel
  unfold varinvPos formatVar
  simp only [Option.bind_some, e2, e3, List.cons_append, List.nil_append, List.take_succ_cons, List.take_zero, if_true,
    List.drop_succ_cons, List.drop_zero, List.append_assoc]
  rw [List.takeWhile_append_of_pos (fun d hd => by
    have := isDigit_num hd
    simp only [ne_eq, decide_not, Bool.not_eq_eq_eq_not, Bool.not_true, decide_eq_false_iff_not]
    rintro rfl
    exact absurd this (by decide))]
  simp only [List.takeWhile_cons, ne_eq, not_true_eq_false, decide_false, Bool.false_eq_true, if_false, List.append_nil]
  exact Alias.toInt_toDigits ind

/-! ## What `solve` makes -/

/-- The lazy tensor `self * var`. -/
def prodE (e : LExpr) (ind dim axis : Nat) : LExpr :=
  .binary ['*'] true none .sameor1 none false e (.symb ind dim axis)

theorem solve_some {e o : LExpr} {s : Solve} (h : solve e o = some s) :
    ∃ L B a, eval e = some L ∧ eval o = some B ∧ B.axis = some a ∧ a < 2 ∧ s.axis = 1 - a ∧ s.other = B ∧
      eval (prodE e (newIndex L.symb) B.ndim (1 - a)) = some s.res ∧
      s.varformula = formatVar "Var".toList (newIndex L.symb) B.ndim (num (1 - a)) := by
  simp only [solve, Option.bind_eq_some_iff] at h
  obtain ⟨L, hL, B, hB, h⟩ := h
  split at h
  · cases h
  · simp only [Option.bind_eq_some_iff] at h
    obtain ⟨a, ha, h⟩ := h
    split at h
    · cases h
    · rename_i ha2
      simp only [Option.bind_eq_some_iff] at h
      obtain ⟨v, hv, h⟩ := h
      simp only [mul, scalarEq, Bool.false_eq_true, if_false, infixOp, mk, Option.map_eq_some_iff] at hv
      obtain ⟨R, hR, rfl⟩ := hv
      simp only [Option.map_eq_some_iff] at h
      obtain ⟨R', hR', rfl⟩ := h
      refine ⟨L, B, a, hL, hB, ha, by omega, rfl, rfl, hR', ?_⟩
      exact replace_varsymb _ _ _ (by omega)

theorem routine_some {s : Solve} {k : Solver} {vars : List LTensor} (h : s.routine = some (k, vars)) :
    ∃ q pos c z, fixvariables s.res [] = some q ∧ q.2.2 = vars ∧ s.res.hasDtype = true ∧
      varinvPos [] (some s.varformula) = some pos ∧
      parseRed (genredText "Sum".toList q.1 [] (axis2cat s.axis) []) = some c ∧ construct c.1 c.2 = some z ∧
      k = ⟨z.1, z.2.1, z.2.2, pos⟩ := by
  simp only [Solve.routine, Option.bind_eq_some_iff, Option.map_eq_some_iff, Prod.mk.injEq] at h
  obtain ⟨q, hq, k', hk, rfl, rfl⟩ := h
  cases hd : s.res.hasDtype with
  | false =>
    rw [hd] at hk
    simp [kernelSolve, varinvPos] at hk
  | true =>
    simp only [hd, if_true, kernelSolve, Option.bind_eq_some_iff, Option.map_eq_some_iff] at hk
    obtain ⟨pos, hp, c, hc, z, hz, rfl⟩ := hk
    exact ⟨q, pos, c, z, hq, rfl, rfl, hp, hc, hz, rfl⟩

/-! ## Sums over arrays -/

theorem sum_rows (N D : Nat) (f : Nat → ℝ) :
    ∑ q : Fin (N * D), f q = ∑ i ∈ Finset.range N, ∑ k ∈ Finset.range D, f (i * D + k) := by
  rw [Fin.sum_univ_eq_sum_range]
  induction N with
  | zero => simp
  | succ N ih => rw [Nat.succ_mul, Finset.sum_range_add, ih, Finset.sum_range_succ]


theorem memOf_fin {n : Nat} (x : Fin n → ℝ) (q : Fin n) : memOf x q = x q := dif_pos q.2

/-- The matrix of the operator `x ↦ Σ_j G(i, j)_k x_jk`, on arrays with rows of dimension `D`. -/
def kmat (n D : Nat) (G : Nat → Nat → Nat → ℝ) : Matrix (Fin n) (Fin n) ℝ := fun p q =>
  if p.1 % D = q.1 % D then G (p.1 / D) (q.1 / D) (p.1 % D) else 0

theorem kmat_mulVec {N D : Nat} (G : Nat → Nat → Nat → ℝ) (x : Fin (N * D) → ℝ) (p : Fin (N * D)) :
    (kmat (N * D) D G).mulVec x p =
      ∑ j ∈ Finset.range N, G (p.1 / D) j (p.1 % D) * memOf x (j * D + p.1 % D) := by
  have hD : 0 < D := Nat.pos_of_ne_zero fun h => by
    have := p.2
    simp [h] at this
  have e : (kmat (N * D) D G).mulVec x p = ∑ j ∈ Finset.range N, ∑ l ∈ Finset.range D,
      (if p.1 % D = (j * D + l) % D then G (p.1 / D) ((j * D + l) / D) (p.1 % D) else 0) * memOf x (j * D + l) := by
    rw [← sum_rows N D fun q => (if p.1 % D = q % D then G (p.1 / D) (q / D) (p.1 % D) else 0) * memOf x q]
    simp only [Matrix.mulVec, dotProduct, kmat, memOf_fin]
  rw [e]
  refine Finset.sum_congr rfl fun j _ => ?_
  rw [Finset.sum_eq_single (p.1 % D)]
  · simp only [Nat.mul_add_mod_self_right, Nat.mod_mod, if_true]
    rw [show (j * D + p.1 % D) / D = j by
      rw [Nat.add_comm, Nat.add_mul_div_right _ _ hD, Nat.div_eq_of_lt (Nat.mod_lt _ hD), Nat.zero_add]]
  · intro l hl hne
    simp only [Nat.mul_add_mod_self_right, Nat.mod_eq_of_lt (Finset.mem_range.1 hl), if_neg (Ne.symm hne), zero_mul]
  · intro h
    exact absurd (Finset.mem_range.2 (Nat.mod_lt _ hD)) h

theorem kmat_psd {N D : Nat} {G : Nat → Nat → Nat → ℝ}
    (h : ∀ k < D, ∀ x : Nat → ℝ, 0 ≤ ∑ i ∈ Finset.range N, ∑ j ∈ Finset.range N, x i * G i j k * x j)
    (x : Fin (N * D) → ℝ) : 0 ≤ ∑ p, x p * (kmat (N * D) D G).mulVec x p := by
  have e : ∑ p, x p * (kmat (N * D) D G).mulVec x p = ∑ i ∈ Finset.range N, ∑ k ∈ Finset.range D, memOf x (i * D + k) *
      ∑ j ∈ Finset.range N, G ((i * D + k) / D) j ((i * D + k) % D) * memOf x (j * D + (i * D + k) % D) := by
    rw [← sum_rows N D fun p => memOf x p * ∑ j ∈ Finset.range N, G (p / D) j (p % D) * memOf x (j * D + p % D)]
    exact Finset.sum_congr rfl fun p _ => by
      rw [kmat_mulVec]
      simp only [memOf_fin]
  rw [e, Finset.sum_comm]
  refine Finset.sum_nonneg fun k hk => ?_
  have hk := Finset.mem_range.1 hk
  refine (h k hk fun i => memOf x (i * D + k)).trans_eq (Finset.sum_congr rfl fun i _ => ?_)
  rw [Finset.mul_sum]
  refine Finset.sum_congr rfl fun j _ => ?_
  have hD : 0 < D := by omega
  rw [show (i * D + k) / D = i by rw [Nat.add_comm, Nat.add_mul_div_right _ _ hD, Nat.div_eq_of_lt hk, Nat.zero_add],
    show (i * D + k) % D = k by rw [Nat.mul_add_mod_self_right, Nat.mod_eq_of_lt hk]]
  ring

theorem map_symb {f : Nat → Option Nat} {T : LTree Nat} {i d c : Nat} (h : T.map f = .symb i d c) : T = .symb i d c := by
  cases T <;> simp only [LTree.map, LTree.symb.injEq, reduceCtorEq] at h
  obtain ⟨rfl, rfl, rfl⟩ := h
  rfl

theorem prod_eval {e : LExpr} {L R : LazyT} (hL : eval e = some L) (hs : L.symb = []) {D a : Nat}
    (hR : eval (prodE e 0 D a) = some R) :
    R.tensors = L.tensors ∧ R.symb = [(0, D, a)] ∧ (L.ndim = D ∨ L.ndim = 1 ∨ D = 1) := by
  simp only [prodE, eval, hL, Option.bind_some, binary] at hR
  split at hR
  · cases hR
  · rename_i hc
    simp only [Option.map_eq_some_iff] at hR
    obtain ⟨res, hres, rfl⟩ := hR
    obtain ⟨h1, h2⟩ := join_tensors hres
    refine ⟨by simpa [mkSymb] using h1, by simpa [mkSymb, hs] using h2, ?_⟩
    simp only [checkDims, mkSymb, not_not] at hc
    exact of_decide_eq_true hc

/-- The formula of the routine: the product of the one of `self` by the unknown, at position 0. -/
theorem solve_inside {K : PyE} (hp : Proper K) {e o : LExpr} (hr : run K = some (.lazy e))
    (hid : ∀ L, eval e = some L → ∀ a ∈ L.tensors, L.tensors.length < a.id) {s : Solve} (hs : solve e o = some s)
    {k : Solver} {vars : List LTensor} (hk : s.routine = some (k, vars)) :
    s.axis < 2 ∧ k.pos = 0 ∧ k.cls = .sum ∧ k.cat = axis2cat s.axis ∧
      (K.dim = s.other.ndim ∨ K.dim = 1 ∨ s.other.ndim = 1) ∧ ∃ ls t,
      LeavesOk ((0, s.other.ndim, s.axis) :: ls) (vars.length + 1) ∧
      k.f = .bin .mul t (.var 0 s.other.ndim s.axis) ∧ t.Pos ∧ t.dim = K.dim ∧
      (∀ v ∈ t.vars, ∃ l ∈ ls, v = ((l.1 : Int), l.2.1, (l.2.2 : Int))) ∧
      ∀ (args : Nat → Nat → ℝ) (data : Data),
        (∀ p (h : p < vars.length), args (p + 1) = data vars[p].src) → ∀ i j, K.Holds data → K.Def data i j →
        t.Def (envL ((0, s.other.ndim, s.axis) :: ls) args i j) ∧
        t.val (envL ((0, s.other.ndim, s.axis) :: ls) args i j) = K.val data i j := by
  obtain ⟨hsem, -, -, -⟩ := good_of_run hr hp.pos hp.zero hp.args hp.fresh
  obtain ⟨L, B, a, hL, -, -, ha, hax, hB, hR, hvf⟩ := solve_some hs
  obtain ⟨hnd, hsy⟩ := hsem.ndim L hL
  obtain ⟨q, pos, c, z, hq, rfl, -, hpos, hc, hz, rfl⟩ := routine_some hk
  have h0 : newIndex L.symb = 0 := by rw [hsy]; rfl
  rw [h0, ← hax, ← hB] at hR hvf
  obtain ⟨ht, hsR, hdims⟩ := prod_eval hL hsy hR
  have h1 : newIndex s.res.symb = 1 := by rw [hsR]; rfl
  rw [hvf, varinv_var] at hpos
  obtain rfl := Option.some.inj hpos
  have hax2 : s.axis < 2 := by omega
  obtain ⟨hd, -⟩ := hp.ids e L hr hL
  obtain ⟨T, vars, g1, g2, -⟩ := C26 (prodE e 0 s.other.ndim s.axis) ⟨by decide, by simp, hsem.ok, trivial⟩ s.res hR
    (ht ▸ hd) (by
      rw [h1, ht]
      intro x hx
      have := hid L hL x hx
      omega)
  obtain rfl := Option.some.inj (hq.symm.trans g1)
  have hdata := g2.data
  simp only [List.map_cons, List.map_nil, List.cons.injEq, and_true, prodE, LExpr.tree, Bool.false_eq_true, if_false,
    if_true, LTree.map] at hdata
  obtain ⟨X, Y, rfl, hX, hY⟩ := map_bin hdata
  obtain rfl := map_symb hY
  have hl := leaves_tree hsem.ok hL hX
  have hsing : ∀ p d c d' c', (p, d, c) ∈ X.leaves → (p, d', c') ∈ X.leaves → d = d' ∧ c = c' := by
    intro p d c d' c' h h'
    refine g2.single p d c d' c' ?_ ?_ <;> simp [LTree.leaves, h, h']
  obtain ⟨t, ht1, ht2, ht3, ht4⟩ := hsem.sem (fun p => (vars.map argOf)[p - 1]?.map Spec.Arg.src) (X.map (1 + ·)) (by
    show _ = e.tree.map some
    rw [← hX, map_map]
    congr 1
    funext p
    simp)
  have hlv : ∀ l ∈ (X.map (1 + ·)).leaves, ∃ p d c, (p, d, c) ∈ X.leaves ∧ l = (1 + p, d, c) := by
    intro l hm
    rw [leaves_map] at hm
    obtain ⟨⟨p, d, c⟩, h, rfl⟩ := List.mem_map.1 hm
    exact ⟨p, d, c, h, rfl⟩
  have hls : LeavesOk ((0, s.other.ndim, s.axis) :: (X.map (1 + ·)).leaves) (vars.length + 1) := by
    refine ⟨fun p d c d' c' h h' => ?_, fun l h => ?_, fun l h => ?_, fun p hp => ?_⟩
    · rcases List.mem_cons.1 h with h | h <;> rcases List.mem_cons.1 h' with h' | h'
      · simp only [Prod.mk.injEq] at h h'
        exact ⟨h.2.1.trans h'.2.1.symm, h.2.2.trans h'.2.2.symm⟩
      · obtain ⟨p', d1, c1, -, e'⟩ := hlv _ h'
        simp only [Prod.mk.injEq] at h e'
        omega
      · obtain ⟨p', d1, c1, -, e'⟩ := hlv _ h
        simp only [Prod.mk.injEq] at h' e'
        omega
      · obtain ⟨p1, d1, c1, m1, e1⟩ := hlv _ h
        obtain ⟨p2, d2, c2, m2, e2⟩ := hlv _ h'
        simp only [Prod.mk.injEq] at e1 e2
        obtain ⟨rfl, rfl, rfl⟩ := e1
        obtain ⟨e2, rfl, rfl⟩ := e2
        obtain rfl : p1 = p2 := by omega
        exact hsing _ _ _ _ _ m1 m2
    · rcases List.mem_cons.1 h with rfl | h
      · show s.axis = 0 ∨ s.axis = 1 ∨ s.axis = 2
        omega
      · obtain ⟨p, d, c, m, rfl⟩ := hlv _ h
        exact (hl _ m).1
    · rcases List.mem_cons.1 h with rfl | h
      · exact Nat.succ_pos _
      · obtain ⟨p, d, c, m, rfl⟩ := hlv _ h
        have := (hl _ m).2
        show 1 + p < vars.length + 1
        omega
    · rcases Nat.eq_zero_or_pos p with rfl | hp0
      · exact ⟨_, _, List.mem_cons_self⟩
      · obtain ⟨d, c, h⟩ := g2.used (p - 1) (by rw [List.length_map]; omega)
        refine ⟨d, c, List.mem_cons_of_mem _ ?_⟩
        rw [leaves_map]
        refine List.mem_map.2 ⟨(p - 1, d, c), by simpa [LTree.leaves] using h, ?_⟩
        show (1 + (p - 1), d, c) = (p, d, c)
        rw [Nat.add_sub_cancel' hp0]
  have hden : Denotes posLab (.bin ['('] (' ' :: ['*'] ++ [' ']) [')'] (X.map (1 + ·)) (.leaf 0 s.other.ndim s.axis))
      (.bin .mul t (.var 0 s.other.ndim s.axis)) :=
    .op (by decide) ht1 (.leaf 0 s.other.ndim s.axis) (by rfl)
  have htext : (LTree.bin ['('] (' ' :: ['*'] ++ [' ']) [')'] X (.symb 0 s.other.ndim s.axis)).text
      (newIndex s.res.symb + ·) =
      (LTree.bin ['('] (' ' :: ['*'] ++ [' ']) [')'] (X.map (1 + ·)) (.leaf 0 s.other.ndim s.axis)).text id := by
    rw [h1]
    simp only [LTree.text, text_map]
    rfl
  have hpar := parseRed_text hden (redop := "Sum".toList) (isName_of (by decide +kernel)) [] (axis2cat s.axis)
  rw [← htext] at hpar
  simp only [genredText, if_true, List.append_nil, List.map_nil, List.flatMap_nil] at hc hpar
  obtain rfl := Option.some.inj (hc.symm.trans hpar)
  have hz' : construct ("Sum".toList ++ "_Reduction".toList)
      ([.term (.bin .mul t (.var 0 s.other.ndim s.axis))] ++ [.num (axis2cat s.axis)]) =
      some (RedCls.sum, Term.bin .mul t (.var 0 s.other.ndim s.axis), (axis2cat s.axis : Int)) := by
    have e1 : "Sum".toList ++ "_Reduction".toList = "Sum_Reduction".toList := by decide +kernel
    rw [e1]
    rfl
  obtain rfl := Option.some.inj (hz.symm.trans hz')
  refine ⟨hax2, rfl, rfl, rfl, hnd ▸ hdims, (X.map (1 + ·)).leaves, t, hls, rfl, ht2, ht3, denotes_vars ht1,
    fun args data hargs i j hh hD => ?_⟩
  refine ht4 data i j _ (fun l hm s' hs' k => ?_) ⟨hh, hD⟩
  rw [envL_leaf hls _ i j (List.mem_cons_of_mem _ hm) k]
  obtain ⟨p, d, c, m, rfl⟩ := hlv _ hm
  have hp' := (hl _ m).2
  simp only at hs' hp' ⊢
  rw [Nat.add_comm 1 p, hargs p hp']
  simp only [Nat.add_sub_cancel_left, List.getElem?_map, List.getElem?_eq_getElem hp', Option.map_some,
    Option.some.injEq] at hs'
  rw [← hs']
  rfl

end Verif.Lazy
