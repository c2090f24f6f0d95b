import Verif.Props.Lazy

/-!
# Lazy tensors: C41 and C49

Transposition, and complex constants.
-/

namespace Verif.Lazy
open Alias (Str)
open Spec (LExpr LTree Arg Stands Interp Arr)

variable {V : Type}

/-! ## Values -/

theorem den_map {A : Type} (I : Interp V) (data : Nat → Arr V) (T : LTree A) (f g : A → Nat)
    (data' : Nat → Arr V) (h : ∀ l ∈ T.leaves, data' (g l.1) = data (f l.1)) (b : List Nat) (i j : Nat) :
    (T.map g).den I data' b i j = (T.map f).den I data b i j := by
  induction T with
  | leaf a d c => simp only [LTree.map, LTree.den, h (a, d, c) (by simp [LTree.leaves])]
  | symb => rfl
  | const => rfl
  | un p q x ih => simp only [LTree.map, LTree.den, ih h]
  | bin p m q x y ihx ihy =>
    simp only [LTree.leaves, List.mem_append] at h
    simp only [LTree.map, LTree.den, ihx (fun l hl => h l (.inl hl)), ihy (fun l hl => h l (.inr hl))]
  | ter p m n q x y z ihx ihy ihz =>
    simp only [LTree.leaves, List.mem_append] at h
    simp only [LTree.map, LTree.den, ihx (fun l hl => h l (.inl (.inl hl))),
      ihy (fun l hl => h l (.inl (.inr hl))), ihz (fun l hl => h l (.inr hl))]

theorem map_id (T : LTree Nat) : T.map id = T := by
  induction T <;> simp_all [LTree.map]

/-- The value of the formula that is passed to the routine is the value of the expression. -/
theorem den_stands {nb : Nat} {args : List Arg} {U T : LTree Nat} (h : Stands nb args [U] [T])
    (I : Interp V) (data argData : Nat → Arr V)
    (hdata : ∀ p a, args[p]? = some a → argData p = data a.src) (b : List Nat) (i j : Nat) :
    T.den I argData b i j = U.den I data b i j := by
  have hd := h.data
  simp only [List.map_cons, List.map_nil, List.cons.injEq, and_true] at hd
  have e1 : U = (T.map (fun p => args[p]?.map Arg.src)).map (·.getD 0) := by
    rw [hd, map_map]
    exact (map_id U).symm
  rw [map_map] at e1
  conv_rhs => rw [e1]
  conv_lhs => rw [← map_id T]
  refine den_map I data T _ id argData ?_ b i j
  intro l hl
  obtain ⟨a, ha, _⟩ := h.shape l.1 l.2.1 l.2.2 (by simpa using hl)
  simp only [id, Function.comp, ha, Option.map_some, Option.getD_some]
  exact hdata l.1 a ha

theorem den_swap (I : Interp V) (data : Nat → Arr V) (T : LTree Nat) (b : List Nat) (i j : Nat) :
    T.swap.den I data b j i = T.den I data b i j := by
  induction T with
  | leaf a d c =>
    simp only [LTree.swap, LTree.den, LTree.swapCat]
    by_cases h0 : c = 0
    · simp [h0]
    · by_cases h1 : c = 1
      · simp [h1]
      · simp [h0, h1]
  | symb n d c =>
    simp only [LTree.swap, LTree.den, LTree.swapCat]
    by_cases h0 : c = 0
    · simp [h0]
    · by_cases h1 : c = 1
      · simp [h1]
      · simp [h0, h1]
  | const => rfl
  | un p q x ih => simp only [LTree.swap, LTree.den, ih]
  | bin p m q x y ihx ihy => simp only [LTree.swap, LTree.den, ihx, ihy]
  | ter p m n q x y z ihx ihy ihz => simp only [LTree.swap, LTree.den, ihx, ihy, ihz]

theorem swap_swap (T : LTree Nat) : T.swap.swap = T := by
  have h : ∀ c, LTree.swapCat (LTree.swapCat c) = c := by
    intro c
    unfold LTree.swapCat
    by_cases h0 : c = 0
    · simp [h0]
    · by_cases h1 : c = 1
      · simp [h1]
      · simp [h0, h1]
  induction T <;> simp_all [LTree.swap]

/-! ## C41 -/

/-- **C41**. `K.t()` is the lazy tensor whose entry `(j,i)` is the entry `(i,j)` of `K`: its numbers of rows and columns
are exchanged, and for any meaning of the operations and any data, the formula and the arguments that it gives to
`Genred` have at `(j,i)` the value that the expression of `K` has at `(i,j)`. The hypotheses are those of C26. -/
theorem C41_entry (fresh : Nat → Nat) (e : LExpr) (he : Ok (.t fresh e)) (L : LazyT) (hL : eval e = some L)
    (hd : Distinct (transpose fresh L).tensors)
    (hid : ∀ a ∈ (transpose fresh L).tensors, newIndex L.symb + L.tensors.length ≤ a.id) :
    ∃ L', eval (.t fresh e) = some L' ∧
      L'.shape = L.batchdims.getD [] ++ [L.nj.getD 1, L.ni.getD 1, L.ndim] ∧
      ∃ (T : LTree Nat) (vars : List LTensor),
        reduction L' none = some (T.text (newIndex L.symb + ·), [], vars) ∧
        ∀ (V : Type) (I : Interp V) (data argData : Nat → Arr V),
          (∀ p a, vars[p]? = some a → argData p = data a.src) →
          ∀ b i j, T.den I argData b j i = e.tree.den I data b i j := by
  refine ⟨transpose fresh L, by rw [eval, hL, Option.map_some], rfl, ?_⟩
  obtain ⟨T, vars, h1, h2, _⟩ := C26 (.t fresh e) he (transpose fresh L) (by rw [eval, hL, Option.map_some]) hd
    (by simpa [transpose] using hid)
  refine ⟨T, vars, h1, ?_⟩
  intro V I data argData hdata b i j
  rw [den_stands h2 I data argData (by
    intro p a ha
    rw [List.getElem?_map, Option.map_eq_some_iff] at ha
    obtain ⟨x, hx, rfl⟩ := ha
    exact hdata p x hx) b j i, LExpr.tree, den_swap]

/-- **C41**: `t` is an involution. `K.t().t()` has the shape of `K`, and the same value at every index. -/
theorem C41_involution (fresh fresh' : Nat → Nat) (e : LExpr) (he : Ok (.t fresh' (.t fresh e))) (L L' : LazyT)
    (hL : eval e = some L) (hL' : eval (.t fresh' (.t fresh e)) = some L') (hd : Distinct L'.tensors)
    (hid : ∀ a ∈ L'.tensors, newIndex L'.symb + L'.tensors.length ≤ a.id) :
    L'.shape = L.shape ∧
      ∃ (T : LTree Nat) (vars : List LTensor),
        reduction L' none = some (T.text (newIndex L'.symb + ·), [], vars) ∧
        ∀ (V : Type) (I : Interp V) (data argData : Nat → Arr V),
          (∀ p a, vars[p]? = some a → argData p = data a.src) →
          ∀ b i j, T.den I argData b i j = e.tree.den I data b i j := by
  obtain ⟨T, vars, h1, h2, _⟩ := C26 _ he L' hL' hd hid
  refine ⟨?_, T, vars, h1, ?_⟩
  · simp only [eval, hL, Option.map_some, Option.some.injEq] at hL'
    rw [← hL']
    rfl
  · intro V I data argData hdata b i j
    rw [den_stands h2 I data argData (by
      intro p a ha
      rw [List.getElem?_map, Option.map_eq_some_iff] at ha
      obtain ⟨x, hx, rfl⟩ := ha
      exact hdata p x hx) b i j, LExpr.tree, LExpr.tree, swap_swap]

/-- **C41**: the sum of `K.t()` along one axis is the sum of `K` along the other one. Partial: `K` is not a product by a
variable of dimension more than 100 (`recOf e = none`), and only sums are considered. -/
theorem C41_sum_partial [NonUnitalNonAssocSemiring V] (fresh : Nat → Nat) (e : LExpr) (L : LazyT) (hL : eval e = some L)
    (hr : recOf e = none) (a : Nat) (ha : a < 2) (fuel : Nat) (I : Interp V) (data : Nat → Arr V) :
    ((sumOut (fuel + 1) (.t fresh e) (L.nbatchdims + a)).bind (·.val I data)) =
      ((sumOut (fuel + 1) e (L.nbatchdims + (1 - a))).bind (·.val I data)) ∧
    ((sumOut (fuel + 1) e (L.nbatchdims + a)).bind (·.val I data)) =
      some (e.tree.sumArr I data a (L.batchdims.getD []) (L.ni.getD 1) (L.nj.getD 1) L.ndim) := by
  have ht : eval (.t fresh e) = some (transpose fresh L) := by rw [eval, hL, Option.map_some]
  have key : ∀ (x : LExpr) (Lx : LazyT), eval x = some Lx → recOf x = none → ∀ a < 2,
      sumOut (fuel + 1) x (Lx.nbatchdims + a) = some (.reduced x a) := by
    intro x Lx hx hrx a ha
    rw [sumOut, hx, Option.bind_some, if_neg, if_neg, hrx]
    · simp
    · omega
    · simp only [LazyT.shape, LazyT.nbatchdims, List.length_append, List.length_cons, List.length_nil]
      omega
  have h1 := key (.t fresh e) (transpose fresh L) ht hr a ha
  have h2 := key e L hL hr (1 - a) (by omega)
  have h3 := key e L hL hr a ha
  rw [show (transpose fresh L).nbatchdims = L.nbatchdims from rfl] at h1
  rw [h1, h2, h3]
  simp only [Option.bind_some, SumOut.val, ht, hL, Option.map_some, Option.some.injEq, and_true]
  have : a = 0 ∨ a = 1 := by omega
  rcases this with rfl | rfl <;>
    simp [LTree.sumArr, transpose, LExpr.tree, den_swap]

/-- The hypotheses of `C41_entry` hold for `D = (x_i - y_j)**2`. -/
example : Ok (.t (fun k => 300 + k) exD) ∧ eval exD = some exDL ∧
    Distinct (transpose (fun k => 300 + k) exDL).tensors ∧
    (∀ a ∈ (transpose (fun k => 300 + k) exDL).tensors, newIndex exDL.symb + exDL.tensors.length ≤ a.id) ∧
    recOf exD = none := by
  refine ⟨ok_exDt.2.2.2, eval_exD, ?_, ?_, rfl⟩
  · unfold Distinct
    decide +kernel
  · decide +kernel

/-! ### What fails -/

/-- `K = x_i * v_j` with `v` of dimension 101, 2 rows and 3 columns. -/
def exHigh : LExpr := .binary ['*'] true none .sameor1 none false
    (.binary ['-'] true none .sameor1 none false (.array 100 0 [2, 1] (some 0)) (.array 200 1 [3, 1] (some 1)))
    (.array 300 2 [3, 101] (some 1))

/-- **Not C41**: for `K = (x_i - y_j) * v_j` with `v` of dimension 101, `K.t()` remembers the factors of `K` and
`K.t().sum(axis=0)` is computed as the sum over `i` of `x_i - y_j`, times `v`: it has shape `(3,101)`, whereas
`K.t()` has 3 rows and 2 columns, and its sum over the rows has shape `(2,101)`. -/
theorem not_C41_sum (I : Interp Int) (data : Nat → Arr Int) (h : (data 2).shape = [3, 101]) :
    ∃ L, eval (.t (fun k => 400 + k) exHigh) = some L ∧ L.shape = [3, 2, 101] ∧
      ((sumOut 3 (.t (fun k => 400 + k) exHigh) 0).bind (·.val I data)).map Arr.shape = some [3, 101] := by
  obtain ⟨L, hL⟩ : ∃ L, eval (.t (fun k => 400 + k) exHigh) = some L := by
    rw [← Option.isSome_iff_exists]
    decide +kernel
  refine ⟨L, hL, ?_, ?_⟩
  · have : (eval (.t (fun k => 400 + k) exHigh)).map LazyT.shape = some [3, 2, 101] := by decide +kernel
    rw [hL] at this
    simpa using this
  · have h1 : sumOut 3 (.t (fun k => 400 + k) exHigh) 0 =
        some (.times (.reduced (.binary ['-'] true none .sameor1 none false (.array 100 0 [2, 1] (some 0))
          (.array 200 1 [3, 1] (some 1))) 0) ⟨300, 2, [3, 101], false, 1⟩) := rfl
    have h2 : (eval (.binary ['-'] true none .sameor1 none false (.array 100 0 [2, 1] (some 0))
          (.array 200 1 [3, 1] (some 1)))).map (fun L => (L.batchdims, L.ni, L.nj, L.ndim)) =
        some (none, some 2, some 3, 1) := by decide +kernel
    rw [h1]
    obtain ⟨L', hL', e⟩ := Option.map_eq_some_iff.1 h2
    simp only [Prod.mk.injEq] at e
    simp only [Option.bind_some, SumOut.val, hL', Option.map_some, e.1, e.2.1, e.2.2.1, e.2.2.2, Arr.mul, LTree.sumArr, h]
    rfl

/-! ## C49 -/

/-- The real and imaginary parts, one after the other. -/
def interleave {R : Type} (z : List (R × R)) : List R := z.flatMap (fun v => [v.1, v.2])

theorem complexLoop_same {R : Type} [Zero R] (is : List Nat) (x x' y : CList R) :
    complexLoop is true x y = complexLoop is true x' y := by
  induction is generalizing y with
  | nil => rfl
  | cons i is ih =>
    simp only [complexLoop, if_true]
    split
    · split
      · exact ih _
      · rfl
    · rfl

/-- **C49** for a list of at most one complex number. Partial: see `not_C49`. -/
theorem C49_partial {R : Type} [Zero R] (z : List (R × R)) (h : z.length ≤ 1) : mkComplex z = some (interleave z) := by
  match z, h with
  | [], _ => rfl
  | [v], _ => rfl

/-- **Not C49**: only the first number of the list is used. Two lists of complex numbers with the same length and the
same first number give the same lazy tensor. -/
theorem not_C49 {R : Type} [Zero R] (v : R × R) (z z' : List (R × R)) (h : z.length = z'.length) :
    mkComplex (v :: z) = mkComplex (v :: z') := by
  unfold mkComplex
  simp only [List.length_cons, h]
  congr 1
  rw [List.range_succ_eq_map, complexLoop, complexLoop]
  simp only [Bool.false_eq_true, if_false, List.map_cons, List.getElem?_cons_zero]
  exact complexLoop_same _ _ _ _

/-- **Not C49**, on a list: `[1 + 2j, 3 + 4j]` gives `1, 2, 2, 0`. -/
theorem not_C49_two : mkComplex [((1 : Int), (2 : Int)), (3, 4)] = some [1, 2, 2, 0] ∧
    interleave [((1 : Int), (2 : Int)), (3, 4)] = [1, 2, 3, 4] := by
  decide

end Verif.Lazy
