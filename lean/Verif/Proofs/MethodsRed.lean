import Verif.Model.MethodsRed
import Verif.Props.Methods

/-!
# Reductions of lazy tensors: lemmas
-/

namespace Verif.Parse
open Alias (Str)
open Lazy (num showInt genredText)
open Spec (LTree)

theorem isName_red {redop : Str} (hr : IsName redop) : IsName (redop ++ "_Reduction".toList) := by
  obtain ⟨⟨c, r, rfl, hc⟩, h2⟩ := hr
  refine ⟨⟨c, r ++ "_Reduction".toList, rfl, hc⟩, fun d hd => ?_⟩
  rcases List.mem_append.1 hd with hd | hd
  · exact h2 d hd
  · exact (show ∀ d ∈ "_Reduction".toList, nameChar d from by decide +kernel) d hd

theorem showInt_nat (n : Nat) : showInt (n : Int) = num n := by
  unfold showInt
  rw [if_neg (by omega)]
  rfl

/-- The text of a reduction with weights. -/
theorem parseRed_weight {w g : Str} {t u : Term} (hw : ReadsArg w (.term t)) (hg : ReadsArg g (.term u))
    (hne : ∃ c r, g = c :: r ∧ (c = '(' ∨ c.isAlpha)) {redop : Str} (hr : IsName redop) (cat : Nat) :
    parseRed (genredText redop w [] cat g) =
      some (redop ++ "_Reduction".toList, [.term t, .num cat, .term u]) := by
  have hn := isName_red hr
  obtain ⟨c, r, hgc, hc⟩ := hne
  have hg0 : g ≠ [] := by rw [hgc]; simp
  have hsp : g.head? ≠ some ' ' := by
    rw [hgc]
    simp only [List.head?_cons, ne_eq, Option.some.injEq]
    rintro rfl
    rcases hc with h | h
    · exact absurd h (by decide)
    · exact absurd h (by decide)
  have e : genredText redop w [] cat g =
      (redop ++ "_Reduction".toList) ++ '(' :: (w ++ ',' :: (num cat ++ ',' :: (g ++ [')']))) := by
    have h1 : "_Reduction(".toList = "_Reduction".toList ++ ['('] := by decide +kernel
    unfold genredText
    rw [h1, if_pos rfl, if_neg hg0]
    simp
  have hsn : (num cat ++ ',' :: (g ++ [')'])).head? ≠ some ' ' := by
    obtain ⟨x, r, hx, hd⟩ := num_cons cat
    rw [hx]
    simp only [List.cons_append, List.head?_cons, ne_eq, Option.some.injEq]
    rintro rfl
    exact absurd hd (by decide)
  unfold parseRed
  generalize hm : (genredText redop w [] cat g).length + 1 = m
  have hlen : w.length + (num cat).length + g.length + 5 < m := by
    rw [← hm, e]
    have := name_pos hn
    simp only [List.length_append, List.length_cons, List.length_nil] at this ⊢
    omega
  have ha : parseArgs m (w ++ ',' :: (num cat ++ ',' :: (g ++ [')']))) =
      some ([.term t, .num cat, .term u], []) := by
    refine parseArgs_comma hw (by omega) ?_ hsn
    refine parseArgs_comma (readsArg_nat cat) (by omega) ?_ ?_
    · exact parseArgs_last hg (by omega) []
    · rw [hgc] at hsp ⊢
      simpa using hsp
  rw [e, dropWhile_name hn, takeWhile_name hn]
  simp only [expect, if_true, Option.bind_some, ha]

/-- The text made for `SumSoftMaxWeight`. -/
theorem parseE_one {g : Str} {u : Term} (hne : ∃ c r, g = c :: r ∧ (c = '(' ∨ c.isAlpha))
    (hg : ∀ n rest, g.length < n → parseE n (g ++ rest) = some (u, rest)) :
    ∀ n rest, ("Concat(IntCst(1),".toList ++ g ++ [')']).length < n →
      parseE n ("Concat(IntCst(1),".toList ++ g ++ [')'] ++ rest) = some (.bin .concat (.int 1) u, rest) := by
  intro n rest hn
  have hsp : g.head? ≠ some ' ' := by
    obtain ⟨c, r, rfl, hc⟩ := hne
    simp only [List.head?_cons, ne_eq, Option.some.injEq]
    rintro rfl
    rcases hc with h | h
    · exact absurd h (by decide)
    · exact absurd h (by decide)
  have e : "Concat(IntCst(1),".toList ++ g ++ [')'] ++ rest =
      "Concat".toList ++ '(' :: ("IntCst(1)".toList ++ ',' :: (g ++ ')' :: rest)) := by
    simp
  have hl : "Concat(IntCst(1),".toList.length = 17 := by decide +kernel
  have hl' : "IntCst(1)".toList.length = 9 := by decide +kernel
  simp only [List.length_append, hl, List.length_singleton] at hn
  obtain ⟨m, rfl⟩ : ∃ m, n = m + 1 := ⟨n - 1, by omega⟩
  have h1 : ReadsArg "IntCst(1)".toList (.term (.int 1)) := by
    refine readsArg_term ⟨'I', "ntCst(1)".toList, by decide +kernel, .inr (by decide)⟩ fun n rest hn => ?_
    have := parseE_text (Denotes.int 1) n rest (by
      have : ((LTree.const ("IntCst(".toList ++ showInt 1 ++ [')']) : LTree Nat).text id) = "IntCst(1)".toList := by
        decide +kernel
      rw [this]
      exact hn)
    have h2 : ((LTree.const ("IntCst(".toList ++ showInt 1 ++ [')']) : LTree Nat).text id) = "IntCst(1)".toList := by
      decide +kernel
    rw [h2] at this
    exact this
  rw [e]
  refine parseE_call (isName_of (by decide +kernel)) (as := [.term (.int 1), .term u]) ?_ (by rfl)
  refine parseArgs_comma h1 (by omega) ?_ ?_
  · exact parseArgs_last (readsArg_term hne hg) (by omega) rest
  · obtain ⟨c, r, rfl, hc⟩ := hne
    simpa using hsp

end Verif.Parse

namespace Verif.Lazy
open Alias (Str)
open Spec (LExpr LTree PyE PyRed rowIJ Stands outRows redRows)
open Parse

/-- The values at `(i, j)` of the variables `ls`. -/
noncomputable def envL (ls : List (Nat × Nat × Nat)) (args : Nat → Nat → ℝ) (i j : Nat) : Env := fun v k =>
  (ls.find? fun l => (l.1 : Int) = v).elim 0 fun l => args l.1 (rowIJ l.2.2 i j * l.2.1 + k)

/-- The variables of a routine with `n` arguments. -/
structure LeavesOk (ls : List (Nat × Nat × Nat)) (n : Nat) : Prop where
  single : ∀ p d c d' c', (p, d, c) ∈ ls → (p, d', c') ∈ ls → d = d' ∧ c = c'
  cat : ∀ l ∈ ls, l.2.2 = 0 ∨ l.2.2 = 1 ∨ l.2.2 = 2
  lt : ∀ l ∈ ls, l.1 < n
  used : ∀ p < n, ∃ d c, (p, d, c) ∈ ls

theorem envL_leaf {ls : List (Nat × Nat × Nat)} {n : Nat} (hs : LeavesOk ls n)
    (args : Nat → Nat → ℝ) (i j : Nat) {l : Nat × Nat × Nat} (hl : l ∈ ls) (k : Nat) :
    envL ls args i j l.1 k = args l.1 (rowIJ l.2.2 i j * l.2.1 + k) := by
  unfold envL
  cases h : ls.find? fun l' => (l'.1 : Int) = l.1 with
  | none =>
    have := List.find?_eq_none.1 h l hl
    simp at this
  | some l' =>
    have h1 := List.find?_some h
    have h2 := List.mem_of_find?_eq_some h
    simp only [decide_eq_true_eq, Nat.cast_inj] at h1
    obtain ⟨p, d, c⟩ := l
    obtain ⟨p', d', c'⟩ := l'
    simp only at h1
    subst h1
    obtain ⟨rfl, rfl⟩ := hs.single _ _ _ _ _ h2 hl
    rfl

/-- The formula `t`, on the arrays `srcs`, has vectors of dimension `d` and, where `D` holds, the values `V`. -/
structure TermOf (ls : List (Nat × Nat × Nat)) (srcs : List Nat) (t : Term) (d : Nat) (V : Data → Nat → Nat → Vec)
    (D : Data → Nat → Nat → Prop) : Prop where
  pos : t.Pos
  dim : t.dim = d
  vars : ∀ v ∈ t.vars, ∃ l ∈ ls, v = ((l.1 : Int), l.2.1, (l.2.2 : Int))
  sem : ∀ data i j, D data i j → t.Def (envL ls (given data srcs) i j) ∧ t.val (envL ls (given data srcs) i j) = V data i j

/-- The values of the variables for the row `i` of the output and the reduced index `j`. -/
noncomputable def envA (ls : List (Nat × Nat × Nat)) (args : Nat → Nat → ℝ) (a i j : Nat) : Env :=
  if a = 0 then envL ls args j i else envL ls args i j

theorem TermOf.inputs {ls : List (Nat × Nat × Nat)} {n : Nat} (hl : LeavesOk ls n) {srcs t d V D}
    (h : TermOf ls srcs t d V D) : t.Inputs ∧ ∀ v ∈ t.vars, v.1.toNat < n := by
  refine ⟨⟨?_, ?_, ?_⟩, ?_⟩
  · intro v hv
    obtain ⟨l, _, rfl⟩ := h.vars v hv
    exact Int.natCast_nonneg _
  · intro v hv
    obtain ⟨l, hm, rfl⟩ := h.vars v hv
    have := hl.cat l hm
    show (l.2.2 : Int) = 0 ∨ (l.2.2 : Int) = 1 ∨ (l.2.2 : Int) = 2
    omega
  · intro u hu v hv huv
    obtain ⟨⟨p, d, c⟩, hm, rfl⟩ := h.vars u hu
    obtain ⟨⟨p', d', c'⟩, hm', rfl⟩ := h.vars v hv
    simp only [Nat.cast_inj] at huv
    subst huv
    obtain ⟨rfl, rfl⟩ := hl.single _ _ _ _ _ hm hm'
    rfl
  · intro v hv
    obtain ⟨l, hm, rfl⟩ := h.vars v hv
    simpa using hl.lt l hm

theorem TermOf.setting {ls : List (Nat × Nat × Nat)} {N : Nat} (hl : LeavesOk ls N) {srcs t d V D}
    (h : TermOf ls srcs t d V D) {ex : Expr} (hx : Runs t ex) {a : Nat} (ha : a < 2) {m n : Nat} {data : Data}
    (hD : ∀ i < m, ∀ j < n, D data i j) :
    Setting t ex (axis2cat a) m n (given data srcs) (envA ls (given data srcs) a) := by
  obtain ⟨hin, hlt⟩ := h.inputs hl
  obtain rfl | rfl : a = 0 ∨ a = 1 := by omega
  all_goals
    refine ⟨h.pos, hin, hx, by decide, fun i _ j _ v hv k _ => ?_, fun i hi j hj => ?_⟩
    · obtain ⟨l, hm, rfl⟩ := h.vars v hv
      have hc := hl.cat l hm
      rw [row_rowIJ (by decide) (by simpa using hc)]
      simp only [axis2cat, envA, Int.toNat_natCast]
      exact envL_leaf hl _ _ _ hm k
  · exact (h.sem data j i (hD j hj i hi)).1
  · exact (h.sem data i j (hD i hi j hj)).1

theorem TermOf.value {ls : List (Nat × Nat × Nat)} {srcs t d V D}
    (h : TermOf ls srcs t d V D) {a : Nat} (ha : a < 2) {m n : Nat} {data : Data}
    (hD : ∀ i < m, ∀ j < n, D data i j) {i j : Nat} (hi : i < Spec.rowsOut a m n) (hj : j < Spec.rowsRed a m n) :
    t.val (envA ls (given data srcs) a i j) = if a = 0 then V data j i else V data i j := by
  obtain rfl | rfl : a = 0 ∨ a = 1 := by omega
  · exact (h.sem data j i (hD j hj i hi)).2
  · exact (h.sem data i j (hD i hi j hj)).2

theorem TermOf.int (ls : List (Nat × Nat × Nat)) (srcs : List Nat) (n : Int) :
    TermOf ls srcs (.int n) 1 (fun _ _ _ _ => n) fun _ _ _ => True :=
  ⟨trivial, rfl, fun _ h => by simp [Term.vars] at h, fun _ _ _ _ => ⟨trivial, rfl⟩⟩

theorem TermOf.concat {ls : List (Nat × Nat × Nat)} {srcs t d V D u d' V' D'} (h : TermOf ls srcs t d V D)
    (h' : TermOf ls srcs u d' V' D') : TermOf ls srcs (.bin .concat t u) (d + d')
      (fun data i j => Spec.cst (d + d') fun k => if k < d then V data i j k else V' data i j (k - d))
      (fun data i j => D data i j ∧ D' data i j) := by
  refine ⟨⟨h.pos, h'.pos⟩, ?_, fun v hv => ?_, fun data i j hD => ?_⟩
  · simp only [Term.dim, Bin.dim, h.dim, h'.dim]
  · simp only [Term.vars, List.mem_append] at hv
    exact hv.elim (h.vars v) (h'.vars v)
  · obtain ⟨h1, h2⟩ := h.sem data i j hD.1
    obtain ⟨h3, h4⟩ := h'.sem data i j hD.2
    refine ⟨⟨h1, h3, trivial⟩, ?_⟩
    simp only [Term.val, Spec.binVal, h2, h4, h.dim, h'.dim]

/-- A tree of a routine. -/
theorem termOf_tree {e : LExpr} {d : Nat} {V : Data → Nat → Nat → Vec} {D : Data → Nat → Nat → Prop}
    (hsem : Sem e d V D) {vars : List LTensor} {T : LTree Nat} {ls : List (Nat × Nat × Nat)}
    (hls : LeavesOk ls vars.length) (hsub : ∀ l ∈ T.leaves, l ∈ ls)
    (hT : T.map (fun p => (vars.map argOf)[p]?.map Spec.Arg.src) = e.tree.map some) :
    ∃ t, Denotes posLab T t ∧ TermOf ls (vars.map fun a => a.src) t d V D := by
  obtain ⟨t, ht, htp, htd, hts⟩ := hsem.sem _ T hT
  refine ⟨t, ht, htp, htd, fun v hv => ?_, fun data i j hD => ?_⟩
  · obtain ⟨l, hl, rfl⟩ := denotes_vars ht v hv
    exact ⟨l, hsub l hl, rfl⟩
  · refine hts data i j _ (fun l hl s hs k => ?_) hD
    dsimp only at hs ⊢
    rw [envL_leaf hls _ i j (hsub l hl) k]
    unfold given
    have : (vars.map fun a => a.src).getD l.1 0 = s := by
      simp only [List.getElem?_map, Option.map_map, Option.map_eq_some_iff] at hs
      obtain ⟨a, ha, rfl⟩ := hs
      simp [List.getD_eq_getElem?_getD, ha, argOf]
    rw [this]

/-- The leaves of a tree of a routine. -/
theorem leaves_tree {e : LExpr} (he : Ok e) {L : LazyT} (hL : eval e = some L) {vars : List LTensor} {T : LTree Nat}
    (hT : T.map (fun p => (vars.map argOf)[p]?.map Spec.Arg.src) = e.tree.map some) :
    ∀ l ∈ T.leaves, (l.2.2 = 0 ∨ l.2.2 = 1 ∨ l.2.2 = 2) ∧ l.1 < vars.length := by
  intro l hl
  obtain ⟨s, hs, hm⟩ := leaves_of_data hT l hl
  constructor
  · obtain ⟨T', hT', et⟩ := eval_rel e he L hL
    rw [← et, leaves_map] at hm
    obtain ⟨l', hl', e'⟩ := List.mem_map.1 hm
    simp only [Prod.mk.injEq] at e'
    have := hT'.cat l' hl'
    rw [e'.2.2] at this
    omega
  · simp only [Option.map_eq_some_iff] at hs
    obtain ⟨a, ha, _⟩ := hs
    have := List.getElem?_eq_some_iff.1 ha
    simpa using this.1

/-! ## The reduction that is built -/

/-- The class and the formula of a reduction, for the formulas `t` of the lazy tensor and `u` of the weight. -/
def finish : PyRed → Term → Term → Option (RedCls × Term)
  | .sum, t, _ => some (.sum, t)
  | .min, t, _ => some (.min, t)
  | .max, t, _ => some (.max, t)
  | .argmin, t, _ => some (.argMin, t)
  | .argmax, t, _ => some (.argMax, t)
  | .minArgmin, t, _ => some (.minArgMin, t)
  | .maxArgmax, t, _ => some (.maxArgMax, t)
  | .kmin K, t, _ => if K = 0 then none else some (.kMin K, t)
  | .argkmin K, t, _ => if K = 0 then none else some (.argKMin K, t)
  | .kminArgkmin K, t, _ => if K = 0 then none else some (.kMinArgKMin K, t)
  | .logsumexp, t, _ => shiftExp t (.int 1)
  | .logsumexpW _, t, u => shiftExp t u
  | .sumsoftmaxweight _, t, u => shiftExp t (.bin .concat (.int 1) u)

theorem build_plain {T : LTree Nat} {t : Term} (hT : Denotes posLab T t) (r : PyRed) (hw : r.weight = none) (cat : Nat) :
    ((preprocessText (redName r) []).bind fun n =>
      (parseRed (genredText n.1 (T.text id) (redOpt r) cat n.2)).bind fun c => construct c.1 c.2) =
      (finish r t t).map fun q => (q.1, q.2, (cat : Int)) := by
  have key : ∀ (op : Str) (cls : RedCls), IsName op → isShiftExp (op ++ "_Reduction".toList) = false →
      find redTable (op ++ "_Reduction".toList) = some cls →
      ((parseRed (genredText op (T.text id) [] cat [])).bind fun c => construct c.1 c.2) = some (cls, t, (cat : Int)) := by
    intro op cls hn h1 h2
    have := parseRed_text hT hn [] cat
    simp only [List.map_nil, List.flatMap_nil, List.append_nil] at this
    simp only [genredText, if_true, List.append_nil, this, Option.bind_some, construct, h1, h2, Option.map_some,
      List.cons_append, List.nil_append, Bool.false_eq_true, if_false]
  have keyK : ∀ (op : Str) (cls : Nat → RedCls) (K : Nat), IsName op → isShiftExp (op ++ "_Reduction".toList) = false →
      find redTable (op ++ "_Reduction".toList) = none →
      find redTableK (op ++ "_Reduction".toList) = some cls →
      ((parseRed (genredText op (T.text id) (if K = 0 then [] else num K) cat [])).bind fun c => construct c.1 c.2) =
        if K = 0 then none else some (cls K, t, (cat : Int)) := by
    intro op cls K hn h0 h1 h2
    by_cases hK : K = 0
    · have := parseRed_text hT hn [] cat
      simp only [List.map_nil, List.flatMap_nil, List.append_nil] at this
      simp only [hK, genredText, if_true, List.append_nil, this, Option.bind_some, construct, h0, h1, Option.map_none,
        List.cons_append, List.nil_append, Bool.false_eq_true, if_false]
    · have := parseRed_text hT hn [(K : Int)] cat
      simp only [List.map_cons, List.map_nil, List.flatMap_cons, List.flatMap_nil, List.append_nil, showInt_nat] at this
      have hne : num K ≠ [] := by
        obtain ⟨x, r, hx, -⟩ := num_cons K
        rw [hx]
        simp
      simp only [genredText, if_neg hK, if_neg hne, if_true, List.append_nil, this, Option.bind_some, construct, h2,
        Option.map_some, List.cons_append, List.nil_append]
      rw [if_pos (by omega)]
      simp
  cases r with
  | sum =>
    rw [show preprocessText (redName .sum) [] = some ("Sum".toList, []) by decide +kernel]
    exact key "Sum".toList .sum (isName_of (by decide +kernel)) (by decide +kernel) (by decide +kernel)
  | min =>
    rw [show preprocessText (redName .min) [] = some ("Min".toList, []) by decide +kernel]
    exact key "Min".toList .min (isName_of (by decide +kernel)) (by decide +kernel) (by decide +kernel)
  | max =>
    rw [show preprocessText (redName .max) [] = some ("Max".toList, []) by decide +kernel]
    exact key "Max".toList .max (isName_of (by decide +kernel)) (by decide +kernel) (by decide +kernel)
  | argmin =>
    rw [show preprocessText (redName .argmin) [] = some ("ArgMin".toList, []) by decide +kernel]
    exact key "ArgMin".toList .argMin (isName_of (by decide +kernel)) (by decide +kernel) (by decide +kernel)
  | argmax =>
    rw [show preprocessText (redName .argmax) [] = some ("ArgMax".toList, []) by decide +kernel]
    exact key "ArgMax".toList .argMax (isName_of (by decide +kernel)) (by decide +kernel) (by decide +kernel)
  | minArgmin =>
    rw [show preprocessText (redName .minArgmin) [] = some ("Min_ArgMin".toList, []) by decide +kernel]
    exact key "Min_ArgMin".toList .minArgMin (isName_of (by decide +kernel)) (by decide +kernel) (by decide +kernel)
  | maxArgmax =>
    rw [show preprocessText (redName .maxArgmax) [] = some ("Max_ArgMax".toList, []) by decide +kernel]
    exact key "Max_ArgMax".toList .maxArgMax (isName_of (by decide +kernel)) (by decide +kernel) (by decide +kernel)
  | kmin K =>
    rw [show preprocessText (redName (.kmin K)) [] = some ("KMin".toList, []) from
      show preprocessText "KMin" [] = _ by decide +kernel]
    refine (keyK "KMin".toList .kMin K (isName_of (by decide +kernel)) (by decide +kernel) (by decide +kernel) rfl).trans ?_
    simp only [finish]
    split <;> rfl
  | argkmin K =>
    rw [show preprocessText (redName (.argkmin K)) [] = some ("ArgKMin".toList, []) from
      show preprocessText "ArgKMin" [] = _ by decide +kernel]
    refine (keyK "ArgKMin".toList .argKMin K (isName_of (by decide +kernel)) (by decide +kernel) (by decide +kernel)
      rfl).trans ?_
    simp only [finish]
    split <;> rfl
  | kminArgkmin K =>
    rw [show preprocessText (redName (.kminArgkmin K)) [] = some ("KMin_ArgKMin".toList, []) from
      show preprocessText "KMin_ArgKMin" [] = _ by decide +kernel]
    refine (keyK "KMin_ArgKMin".toList .kMinArgKMin K (isName_of (by decide +kernel)) (by decide +kernel)
      (by decide +kernel) rfl).trans ?_
    simp only [finish]
    split <;> rfl
  | logsumexp =>
    rw [show preprocessText (redName .logsumexp) [] = some ("Max_SumShiftExp".toList, []) by decide +kernel]
    have := parseRed_text hT (redop := "Max_SumShiftExp".toList) (isName_of (by decide +kernel)) [] cat
    simp only [List.map_nil, List.flatMap_nil, List.append_nil] at this
    have h1 : isShiftExp ("Max_SumShiftExp".toList ++ "_Reduction".toList) = true := by decide +kernel
    simp only [redOpt, genredText, if_true, List.append_nil, this, Option.bind_some, construct, h1,
      List.cons_append, List.nil_append, finish]
  | logsumexpW w => cases hw
  | sumsoftmaxweight w => cases hw

theorem preprocess_weight (op : String) (g : Str) (hg : g ≠ []) :
    preprocessText op g = (preprocessName op (some (String.ofList g))).map fun r => (r.1.toList, (r.2.getD "").toList) := by
  rw [preprocessText, if_neg hg]

theorem build_weight {T U : LTree Nat} {t u : Term} (hT : Denotes posLab T t) (hU : Denotes posLab U u) (r : PyRed)
    (hw : r.weight ≠ none) (cat : Nat) :
    ((preprocessText (redName r) (U.text id)).bind fun n =>
      (parseRed (genredText n.1 (T.text id) (redOpt r) cat n.2)).bind fun c => construct c.1 c.2) =
      (finish r t u).map fun q => (q.1, q.2, (cat : Int)) := by
  have hne : U.text id ≠ [] := by
    obtain ⟨c, r, h, -⟩ := text_head hU
    rw [h]
    simp
  have h1 : isShiftExp ("Max_SumShiftExpWeight".toList ++ "_Reduction".toList) = true := by decide +kernel
  have hn : IsName "Max_SumShiftExpWeight".toList := isName_of (by decide +kernel)
  cases r with
  | logsumexpW w =>
    have e : preprocessText (redName (.logsumexpW w)) (U.text id) = some ("Max_SumShiftExpWeight".toList, U.text id) := by
      rw [preprocess_weight _ _ hne]
      have ht : truthy (some (String.ofList (U.text id))) = true := by
        simp [truthy, hne]
      simp [redName, preprocessName, ht]
    rw [e]
    have := parseRed_weight (readsArg_text hT) (readsArg_text hU) (text_head hU) hn cat
    dsimp only [redOpt, Option.bind_some]
    rw [this]
    dsimp only [Option.bind_some, construct]
    rw [if_pos h1]
    rfl
  | sumsoftmaxweight w =>
    have e : preprocessText (redName (.sumsoftmaxweight w)) (U.text id) =
        some ("Max_SumShiftExpWeight".toList, "Concat(IntCst(1),".toList ++ U.text id ++ [')']) := by
      rw [preprocess_weight _ _ hne]
      simp [redName, preprocessName]
    rw [e]
    have hh : ∃ c r, "Concat(IntCst(1),".toList ++ U.text id ++ [')'] = c :: r ∧ (c = '(' ∨ c.isAlpha) :=
      ⟨'C', "oncat(IntCst(1),".toList ++ U.text id ++ [')'], by simp, .inr (by decide)⟩
    have := parseRed_weight (readsArg_text hT) (readsArg_term hh (parseE_one (text_head hU) (parseE_text hU))) hh hn cat
    dsimp only [redOpt, Option.bind_some]
    rw [this]
    dsimp only [Option.bind_some, construct]
    rw [if_pos h1]
    rfl
  | _ => exact absurd rfl hw

/-! ## Numbers -/

section
open Spec (PyM1 PyMi PyM2 PyM3 PyOp cst readVec)

/-- Vectors of dimension 1 are constant. -/
theorem val_const {p : PyE} {v : Val} (hv : run p = some v) (hp : p.Pos) (hz : p.NoZero) (hl : p.LazyArgs)
    (hf : Fresh p) (hd : p.dim = 1) (data : Data) (i j k l : Nat) : p.val data i j k = p.val data i j l := by
  induction p generalizing v i j with
  | int n => rfl
  | float id src q => rfl
  | list id src len =>
    have hd : len = 1 := hd
    simp [PyE.val, cst, hd]
  | array id src shape =>
    have hd : shape.getLastD 1 = 1 := hd
    simp only [PyE.val, readVec, cst, hd, if_true]
  | lazy id src shape axis =>
    have hd : shape.getLastD 1 = 1 := hd
    simp only [PyE.val, readVec, cst, hd, if_true]
  | m1 m x ih =>
    simp only [run, Option.bind_eq_some_iff] at hv
    obtain ⟨u, hu, hv⟩ := hv
    have := ih hu hp hz hl hf
    cases m <;> first | rfl | simp only [PyE.val, PyM1.val, this hd i j]
  | mi m x ih =>
    simp only [run, Option.bind_eq_some_iff] at hv
    obtain ⟨u, hu, hv⟩ := hv
    cases m with
    | round n => simp only [PyE.val, PyMi.val, ih hu hp hz hl hf hd i j]
    | elem n => rfl
    | get n => rfl
    | extract n d =>
      have hd : d.toNat = 1 := hd
      simp [PyE.val, PyMi.val, cst, hd]
    | slice a b =>
      have hd : (b.getD x.dim - a.getD 0).toNat = 1 := hd
      simp only [PyE.val, PyMi.val, cst, hd, if_true]
    | oneHot D =>
      have hd : D = 1 := hd
      simp [PyE.val, PyMi.val, cst, hd]
  | op o x y ihx ihy =>
    simp only [run, Option.bind_eq_some_iff] at hv
    obtain ⟨u, hu, w, hw, hv⟩ := hv
    have hz' := noZero_op hz
    have h1 := (good_of_run hu hp.1 hz'.1 hl.1 hf.1).sem.pos
    have h2 := (good_of_run hw hp.2 hz'.2 hl.2 hf.2).sem.pos
    have hm : (o = .dot) ∨ x.dim = 1 ∧ y.dim = 1 := by
      cases o with
      | dot => exact .inl rfl
      | _ =>
        have hd : Max.max x.dim y.dim = 1 := hd
        exact .inr ⟨by omega, by omega⟩
    rcases hm with rfl | ⟨d1, d2⟩
    · rfl
    · have hx := ihx hu hp.1 hz'.1 hl.1 hf.1 d1 i j
      have hy := ihy hw hp.2 hz'.2 hl.2 hf.2 d2 i j
      cases o with
      | pow =>
        cases y <;> simp only [PyE.val, PyOp.val] at hy ⊢ <;> rw [hx] <;> try rw [hy]
      | _ => simp only [PyE.val, PyOp.val, hx, hy]
  | m2 m x y ihx ihy =>
    simp only [run, Option.bind_eq_some_iff] at hv
    obtain ⟨u, hu, w, hw, hv⟩ := hv
    have h1 := (good_of_run hu hp.1 hz.1 hl.1 hf.1).sem.pos
    have h2 := (good_of_run hw hp.2 hz.2 hl.2.1 hf.2).sem.pos
    cases m with
    | atan2 =>
      have hd : Max.max x.dim y.dim = 1 := hd
      simp only [PyE.val, PyM2.val, ihx hu hp.1 hz.1 hl.1 hf.1 (by omega) i j,
        ihy hw hp.2 hz.2 hl.2.1 hf.2 (by omega) i j]
    | sqdist => rfl
    | weightedsqnorm => rfl
    | concat =>
      have hd : x.dim + y.dim = 1 := hd
      simp only [PyE.val, PyM2.val, cst, hd, if_true]
    | matvecmult =>
      have hd : x.dim / y.dim = 1 := hd
      simp only [PyE.val, PyM2.val, cst, hd, if_true]
    | vecmatmult =>
      have hd : y.dim / x.dim = 1 := hd
      simp only [PyE.val, PyM2.val, cst, hd, if_true]
    | tensorprod =>
      have hd : x.dim * y.dim = 1 := hd
      simp only [PyE.val, PyM2.val, cst, hd, if_true]
  | m3 m x y z ihx ihy ihz =>
    simp only [run, Option.bind_eq_some_iff] at hv
    obtain ⟨u, hu, w, hw, w', hw', hv⟩ := hv
    have h1 := (good_of_run hu hp.1 hz.1 hl.1 hf.1).sem.pos
    have h2 := (good_of_run hw hp.2.1 hz.2.1 hl.2.1 hf.2.1).sem.pos
    have h3 := (good_of_run hw' hp.2.2 hz.2.2 hl.2.2 hf.2.2).sem.pos
    cases m with
    | weightedsqdist => rfl
    | _ =>
      have hd : Max.max (Max.max x.dim y.dim) z.dim = 1 := hd
      simp only [PyE.val, PyM3.val, ihx hu hp.1 hz.1 hl.1 hf.1 (by omega) i j,
        ihy hw hp.2.1 hz.2.1 hl.2.1 hf.2.1 (by omega) i j, ihz hw' hp.2.2 hz.2.2 hl.2.2 hf.2.2 (by omega) i j]
  | t fresh x ih =>
    simp only [run, Option.bind_eq_some_iff] at hv
    obtain ⟨u, hu, hv⟩ := hv
    exact ih hu hp hz hl hf.1 hd j i
end

end Verif.Lazy
