import Verif.Spec.Complex
import Verif.Proofs.FormulaCode

/-!
# The code of complex operations: helper lemmas
-/

namespace Verif.Cplx

open Finset Spec

variable {m d d' : Nat} {x y z : Vec}

theorem store_even (w : Nat → ℂ) (k : Nat) : store w (2 * k) = (w k).re := by
  have h1 : 2 * k % 2 = 0 := by omega
  have h2 : 2 * k / 2 = k := by omega
  simp [store, h1, h2]

theorem store_odd (w : Nat → ℂ) (k : Nat) : store w (2 * k + 1) = (w k).im := by
  have h1 : (2 * k + 1) % 2 = 1 := by omega
  have h2 : (2 * k + 1) / 2 = k := by omega
  simp [store, h1, h2]

theorem cplx_store (w : Nat → ℂ) : cplx (store w) = w := by
  funext k
  apply Complex.ext
  · exact store_even w k
  · exact store_odd w k

theorem store_cplx (x : Vec) : store (cplx x) = x := by
  funext i
  unfold store cplx
  by_cases h : i % 2 = 0
  · rw [if_pos h]; show x _ = x _; congr 1; omega
  · rw [if_neg h]; show x _ = x _; congr 1; omega

theorem cplx_congr (h : ∀ i < 2 * m, x i = y i) : ∀ k < m, cplx x k = cplx y k := fun k hk => by
  unfold cplx
  rw [h _ (by omega), h _ (by omega)]

theorem loop2_even {σ : Type} {body : Nat → σ → Except CErr σ} (st : Nat → σ)
    (h : ∀ k < m, body (2 * k) (st k) = .ok (st (k + 1))) : loop2 (2 * m) body (st 0) = .ok (st m) := by
  unfold loop2
  rw [show (2 * m + 1) / 2 = m by omega]
  exact loop_state st h

/-- A loop that writes pairs. -/
theorem loop2_pairs {body : Nat → CArr → Except CErr CArr} (w : Nat → ℂ)
    (h : ∀ k < m, ∀ z, body (2 * k) (vec (2 * m) z) =
      .ok (vec (2 * m) (Function.update (Function.update z (2 * k) (w k).re) (2 * k + 1) (w k).im))) :
    loop2 (2 * m) body (vec (2 * m) z) = .ok (vec (2 * m) (store w)) := by
  have := loop2_even (m := m) (body := body)
    (fun p => vec (2 * m) (fun i => if i < 2 * p then store w i else z i)) fun k hk => by
      rw [h k hk]
      congr 1
      apply vec_congr
      intro i _
      by_cases h1 : i = 2 * k + 1
      · subst h1
        rw [Function.update_self, if_pos (by omega), store_odd]
      · rw [Function.update_of_ne h1]
        by_cases h2 : i = 2 * k
        · subst h2
          rw [Function.update_self, if_pos (by omega), store_even]
        · rw [Function.update_of_ne h2]
          by_cases h3 : i < 2 * k
          · rw [if_pos h3, if_pos (by omega)]
          · rw [if_neg h3, if_neg (by omega)]
  simp only [Nat.mul_zero, Nat.not_lt_zero, if_false] at this
  rw [this]
  congr 1
  apply vec_congr
  intro i hi
  rw [if_pos hi]

/-- A loop that reads pairs. -/
theorem loop2_half {body : Nat → CArr → Except CErr CArr} (w : Vec)
    (h : ∀ k < m, ∀ z, body (2 * k) (vec m z) = .ok (vec m (Function.update z k (w k)))) :
    loop2 (2 * m) body (vec m z) = .ok (vec m w) := by
  have := loop2_even (m := m) (body := body)
    (fun p => vec m (fun i => if i < p then w i else z i)) fun k hk => by
      rw [h k hk]
      congr 1
      apply vec_congr
      intro i _
      by_cases h1 : i = k
      · subst h1
        rw [Function.update_self, if_pos (by omega)]
      · rw [Function.update_of_ne h1]
        by_cases h3 : i < k
        · rw [if_pos h3, if_pos (by omega)]
        · rw [if_neg h3, if_neg (by omega)]
  simp only [Nat.not_lt_zero, if_false] at this
  rw [this]
  congr 1
  apply vec_congr
  intro i hi
  rw [if_pos hi]

theorem getPair_vec {p : Nat} (h : p + 1 < d) : getPair (vec d x) p = .ok (x p, x (p + 1)) := by
  unfold getPair
  rw [get_vec (by omega), ok_bind, get_vec h, ok_bind]
  rfl

theorem mapM_getPair {L : List (Nat × Vec)} {p : Nat → Nat} (h : ∀ q ∈ L, p q.1 + 1 < q.1) :
    (L.map fun q => vec q.1 q.2).mapM (fun a => getPair a (p a.length)) =
      Except.ok (ε := CErr) (L.map fun q => (q.2 (p q.1), q.2 (p q.1 + 1))) := by
  induction L with
  | nil => rfl
  | cons q L ih =>
    rw [List.map_cons, List.mapM_cons, vec_length, getPair_vec (h q (by simp)), ok_bind,
      ih fun q hq => h q (by simp [hq]), ok_bind]
    rfl

/-- `ComplexVectApply` when `out` has the largest dimension. -/
theorem complexVectApply_map {f : List (ℝ × ℝ) → ℝ × ℝ} {L : List (Nat × Vec)} (hm : 0 < m)
    (hL : ∀ q ∈ L, q.1 = 2 * m ∨ q.1 = 2) :
    complexVectApply f (vec (2 * m) z) (L.map fun q => vec q.1 q.2) =
      .ok (vec (2 * m) (store fun k =>
        let r := f (L.map fun q => ((bcast q.1 q.2 k).re, (bcast q.1 q.2 k).im))
        ⟨r.1, r.2⟩)) := by
  have hdims : ((vec (2 * m) z).length :: (L.map fun q => vec q.1 q.2).map List.length).foldl max 0
      = 2 * m := by
    rw [foldl_max]
    · simp
    · intro b hb
      simp only [vec_length, List.map_map, List.mem_cons, List.mem_map, Function.comp] at hb
      rcases hb with rfl | rfl | ⟨q, hq, rfl⟩
      · omega
      · exact le_rfl
      · rcases hL q hq with h | h <;> omega
  unfold complexVectApply
  simp only [hdims]
  rw [if_pos]
  · apply loop2_pairs
    intro k hk z
    have hp : ∀ q ∈ L, (fun n => 2 * k * if n = 2 * m then 1 else 0) q.1 + 1 < q.1 := by
      intro q hq
      show 2 * k * (if q.1 = 2 * m then 1 else 0) + 1 < q.1
      by_cases h : q.1 = 2 * m
      · rw [if_pos h]; omega
      · rw [if_neg h]; rcases hL q hq with h' | h' <;> omega
    have hL' : (L.map fun q => (q.2 (2 * k * if q.1 = 2 * m then 1 else 0),
        q.2 ((2 * k * if q.1 = 2 * m then 1 else 0) + 1))) =
        L.map fun q => ((bcast q.1 q.2 k).re, (bcast q.1 q.2 k).im) := by
      apply List.map_congr_left
      intro q hq
      unfold bcast cplx
      by_cases h2 : q.1 = 2
      · by_cases h : q.1 = 2 * m
        · have : k = 0 := by omega
          subst this
          simp [h2]
        · rw [if_neg h, if_pos h2]; simp
      · have h : q.1 = 2 * m := by rcases hL q hq with h' | h' <;> omega
        simp [h2, h]
        rw [if_neg (by omega)]
        exact ⟨rfl, rfl⟩
    rw [mapM_getPair (p := fun n => 2 * k * if n = 2 * m then 1 else 0) hp, ok_bind]
    simp only [vec_length, if_true, mul_one]
    rw [hL', put_vec (by omega), ok_bind, put_vec (by omega)]
  · simp only [List.all_cons, List.all_eq_true, Bool.and_eq_true, Bool.or_eq_true, decide_eq_true_eq,
      List.mem_map, vec_length, true_or, true_and]
    rintro _ ⟨_, ⟨q, hq, rfl⟩, rfl⟩
    rw [vec_length]
    exact hL q hq

section Op
variable {M : CMath}

theorem Un.isReal_op {o : Un} (ho : o.isReal = true) (out arg : CArr) :
    o.op M d out arg = vectApplyC (fun _ xs => o.scalar M xs[0]!) out [arg] := by
  cases o <;> first | rfl | exact Bool.noConfusion ho

theorem Un.scalar_eq (hM : M.Exact) {o : Un} (ho : o.isReal = true) (hd : unDef o d x) {k : Nat} (hk : k < d) :
    o.scalar M (x k) = unVal o d x k := by
  cases o <;> first | exact Bool.noConfusion ho | skip
  · exact hM.exp _
  · exact hM.cos _
  · exact hM.sin _
  · exact hM.div _ _ (hd k hk)
  · exact hM.sqrt _ (hd k hk)
  · rfl
  · exact (sq _).symm
  · exact congrArg Neg.neg (hM.sin _)
  · show M.div _ _ = _ / _
    have := hd k hk
    rw [hM.div _ _ (mul_ne_zero this this), sq]
  · show M.div _ _ * _ = 1 / (2 * Real.sqrt (x k))
    have h := hd k hk
    have h' := Real.sqrt_pos.mpr h
    rw [if_neg h.ne', hM.sqrt _ h.le, hM.div _ _ two_ne_zero, hM.div _ _ h'.ne']
    field_simp

/-- The code of an operation with one argument writes its value. -/
theorem Un.op_vec (hM : M.Exact) {o : Un} (hd : 0 < d) (ha : o.accept d = true) (hdef : unDef o d x)
    (hn : ∀ n, o = .sumT n → 0 < n ∧ n % 2 = 0) :
    o.op M d (vec (o.dim d) z) (vec d x) = .ok (vec (o.dim d) (unVal o d x)) := by
  have hev : ∀ {d : Nat}, (d % 2 == 0) = true → 2 * (d / 2) = d := fun h => by
    have := eq_of_beq h; omega
  by_cases ho : o.isReal = true
  · have hdim : o.dim d = d := by cases o <;> first | rfl | exact Bool.noConfusion ho
    rw [Un.isReal_op ho, hdim]
    have := vectApplyC_map (f := fun _ xs => o.scalar M xs[0]!) (z := z) (L := [(d, x)]) hd (by simp)
    simp only [List.map_cons, List.map_nil, if_true] at this
    rw [this]
    congr 1
    apply vec_congr
    intro k hk
    exact Un.scalar_eq hM ho hdef hk
  cases o <;> first | exact absurd rfl ho | skip
  case conj =>
    obtain ⟨m, rfl⟩ : ∃ m, d = 2 * m := ⟨d / 2, (hev ha).symm⟩
    have := complexVectApply_map (f := fun xs => (xs[0]!.1, -xs[0]!.2)) (z := z) (L := [(2 * m, x)])
      (m := m) (by omega) (by simp)
    simp only [List.map_cons, List.map_nil] at this
    show complexVectApply _ _ _ = _
    rw [show Un.conj.dim (2 * m) = 2 * m from rfl, this]
    congr 1
    apply vec_congr
    intro i hi
    unfold store bcast unVal store
    by_cases h2 : 2 * m = 2
    · have : i / 2 = 0 := by omega
      simp [h2, this]
    · simp [h2]
  case exp =>
    obtain ⟨m, rfl⟩ : ∃ m, d = 2 * m := ⟨d / 2, (hev ha).symm⟩
    have := complexVectApply_map (f := fun xs => (M.exp xs[0]!.1 * M.cos xs[0]!.2,
      M.exp xs[0]!.1 * M.sin xs[0]!.2)) (z := z) (L := [(2 * m, x)])
      (m := m) (by omega) (by simp)
    simp only [List.map_cons, List.map_nil] at this
    show complexVectApply _ _ _ = _
    rw [show Un.exp.dim (2 * m) = 2 * m from rfl, this]
    congr 1
    apply vec_congr
    intro i hi
    unfold store bcast unVal store
    by_cases h2 : 2 * m = 2
    · have : i / 2 = 0 := by omega
      simp [h2, this, hM.exp, hM.cos, hM.sin, Complex.exp_re, Complex.exp_im]
    · simp [h2, hM.exp, hM.cos, hM.sin, Complex.exp_re, Complex.exp_im]
  case real =>
    obtain ⟨m, rfl⟩ : ∃ m, d = 2 * m := ⟨d / 2, (hev ha).symm⟩
    rw [show Un.real.dim (2 * m) = m by simp [Un.dim]]
    unfold Un.op
    dsimp only
    apply loop2_half
    intro k hk z
    rw [get_vec (by omega), ok_bind, show 2 * k / 2 = k by omega, put_vec hk]
    rfl
  case imag =>
    obtain ⟨m, rfl⟩ : ∃ m, d = 2 * m := ⟨d / 2, (hev ha).symm⟩
    rw [show Un.imag.dim (2 * m) = m by simp [Un.dim]]
    unfold Un.op
    dsimp only
    apply loop2_half
    intro k hk z
    rw [get_vec (by omega), ok_bind, show 2 * k / 2 = k by omega, put_vec hk]
    rfl
  case sqAbs =>
    obtain ⟨m, rfl⟩ : ∃ m, d = 2 * m := ⟨d / 2, (hev ha).symm⟩
    rw [show Un.sqAbs.dim (2 * m) = m by simp [Un.dim]]
    unfold Un.op
    dsimp only
    apply loop2_half
    intro k hk z
    rw [get_vec (by omega), ok_bind, get_vec (by omega), ok_bind, show 2 * k / 2 = k by omega, put_vec hk]
    congr 4
    show _ = ‖cplx x k‖ ^ 2
    rw [← Complex.normSq_eq_norm_sq, Complex.normSq_apply]
    rfl
  case ofReal =>
    unfold Un.op Un.dim unVal
    dsimp only
    apply loop2_pairs
    intro k hk z
    rw [show 2 * k / 2 = k by omega, get_vec hk, ok_bind, put_vec (by omega), ok_bind, put_vec (by omega)]
    rfl
  case ofImag =>
    unfold Un.op Un.dim unVal
    dsimp only
    apply loop2_pairs
    intro k hk z
    rw [put_vec (by omega), ok_bind, show 2 * k / 2 = k by omega, get_vec hk, ok_bind, put_vec (by omega)]
    simp
  case exp1j =>
    unfold Un.op Un.dim unVal
    dsimp only
    apply loop2_pairs
    intro k hk z
    rw [show 2 * k / 2 = k by omega, get_vec hk, ok_bind, put_vec (by omega), ok_bind, ok_bind,
      put_vec (by omega), hM.sin, hM.cos, Function.update_comm (by omega)]
    simp [Complex.exp_re, Complex.exp_im]
  case sumT n =>
    obtain ⟨h1, h2⟩ := hn n rfl
    obtain ⟨m, rfl⟩ : ∃ m, n = 2 * m := ⟨n / 2, by omega⟩
    obtain rfl : d = 2 := eq_of_beq ha
    unfold Un.op Un.dim unVal
    dsimp only
    apply loop2_pairs
    intro k hk z
    rw [get_vec_zero (by omega), ok_bind, put_vec (by omega), ok_bind,
      show (1 : Int) = (1 : Nat) from rfl, get_vec (by omega), ok_bind, put_vec (by omega)]
    rfl
  case sum =>
    obtain ⟨m, rfl⟩ : ∃ m, d = 2 * m := ⟨d / 2, (hev ha).symm⟩
    rw [show Un.sum.dim (2 * m) = 2 from rfl]
    show (CArr.put (vec 2 z) 0 0 >>= fun out => CArr.get out 0 >>= fun a => CArr.put out 1 a >>= _) = _
    rw [put_vec_zero (by omega), ok_bind, get_vec_zero (by omega), ok_bind,
      show (1 : Int) = (1 : Nat) from rfl, put_vec (by omega), ok_bind, Function.update_self]
    have := loop2_even (m := m) (body := fun i out => do
        let out ← CArr.put out 0 ((← CArr.get out 0) + (← CArr.get (vec (2 * m) x) i))
        CArr.put out 1 ((← CArr.get out 1) + (← CArr.get (vec (2 * m) x) (i + 1 : Nat))))
      (fun p => vec 2 (store fun _ => ∑ k ∈ range p, cplx x k)) fun k hk => by
        rw [get_vec_zero (by omega), ok_bind, get_vec (by omega), ok_bind, put_vec_zero (by omega), ok_bind,
          show (1 : Int) = (1 : Nat) from rfl, get_vec (by omega), ok_bind, get_vec (by omega), ok_bind,
          put_vec (by omega)]
        congr 1
        apply vec_congr
        intro i hi
        rw [sum_range_succ]
        obtain rfl | rfl : i = 0 ∨ i = 1 := by omega
        · simp [store, cplx]
        · simp [store, cplx]
    refine Eq.trans ?_ (this.trans ?_)
    · congr 1
    · rw [show unVal .sum (2 * m) x = store fun _ => ∑ k ∈ range (2 * m / 2), cplx x k from rfl,
        show 2 * m / 2 = m by omega]

theorem accept_cplx {o : Bin} (ho : o = .add ∨ o = .sub ∨ o = .mul) (ha : o.accept d d' = true) :
    ∃ m, max d d' = 2 * m ∧ (d = 2 * m ∨ d = 2) ∧ (d' = 2 * m ∨ d' = 2) := by
  have : max d d' % 2 = 0 ∧ (d = d' ∨ min d d' = 2) := by
    rcases ho with rfl | rfl | rfl <;>
      simpa only [Bin.accept, Bool.and_eq_true, beq_iff_eq, Bool.or_eq_true] using ha
  exact ⟨max d d' / 2, by omega, by omega, by omega⟩

theorem accept_real {o : Bin} (ho : o ≠ .add ∧ o ≠ .sub ∧ o ≠ .mul ∧ o ≠ .realScal)
    (ha : o.accept d d' = true) : d = d' ∨ min d d' = 1 := by
  have : (d == d' || min d d' == 1) = true := by
    obtain ⟨h1, h2, h3, h4⟩ := ho
    cases o <;> first | exact absurd rfl h1 | exact absurd rfl h2 | exact absurd rfl h3 | exact absurd rfl h4 | exact ha
  simpa only [beq_iff_eq, Bool.or_eq_true] using this

theorem Bin.real_op {o : Bin} (ho : o ≠ .add ∧ o ≠ .sub ∧ o ≠ .mul ∧ o ≠ .realScal) (out a b : CArr) :
    o.op M out a b = vectApplyC (fun _ xs => o.scalar M xs[0]! xs[1]!) out [a, b] := by
  obtain ⟨h1, h2, h3, h4⟩ := ho
  cases o <;> first | exact absurd rfl h1 | exact absurd rfl h2 | exact absurd rfl h3 | exact absurd rfl h4 | rfl

theorem Bin.scalar_eq (hM : M.Exact) {o : Bin} (ho : o ≠ .add ∧ o ≠ .sub ∧ o ≠ .mul ∧ o ≠ .realScal)
    (hd : binDef o d d' x y) {k : Nat} (hk : k < max d d') :
    o.scalar M (cst d x k) (cst d' y k) = binVal o d d' x y k := by
  obtain ⟨h1, h2, h3, h4⟩ := ho
  cases o <;> first | exact absurd rfl h1 | exact absurd rfl h2 | exact absurd rfl h3 |
    exact absurd rfl h4 | exact rfl | skip
  · exact hM.atan2 _ _ (hd k hk)
  · exact hM.div _ _ (hd k hk)
  all_goals
    have := hd k hk
    have h0 : cst d x k * cst d x k + cst d' y k * cst d' y k ≠ 0 := by
      rw [ne_eq, mul_self_add_mul_self_eq_zero]
      rintro ⟨h1, h2⟩
      exact this.elim (· h1) (· h2)
    show M.div _ _ = _ / _
    rw [hM.div _ _ h0, sq, sq]

/-- The code of an operation with two arguments writes its value. -/
theorem Bin.op_vec (hM : M.Exact) {o : Bin} (hd : 0 < d) (hd' : 0 < d') (ha : o.accept d d' = true)
    (hdef : binDef o d d' x y) :
    o.op M (vec (o.dim d d') z) (vec d x) (vec d' y) = .ok (vec (o.dim d d') (binVal o d d' x y)) := by
  by_cases ho : o = .add ∨ o = .sub ∨ o = .mul
  · obtain ⟨m, hm, h1, h2⟩ := accept_cplx ho ha
    have hdim : o.dim d d' = 2 * m := by rcases ho with rfl | rfl | rfl <;> exact hm
    rw [hdim]
    have key := fun f => complexVectApply_map (f := f) (z := z) (L := [(d, x), (d', y)]) (m := m) (by omega)
      (by simp [h1, h2])
    simp only [List.map_cons, List.map_nil] at key
    rcases ho with rfl | rfl | rfl
    all_goals
      exact (key _).trans rfl
  by_cases hs : o = .realScal
  · subst hs
    have ha' : d = 1 ∧ d' % 2 = 0 := by simpa [Bin.accept] using ha
    obtain ⟨rfl, he⟩ := ha'
    obtain ⟨m, rfl⟩ : ∃ m, d' = 2 * m := ⟨d' / 2, by omega⟩
    unfold Bin.op Bin.dim binVal
    dsimp only
    rw [vec_length]
    apply loop2_pairs
    intro k hk z
    rw [get_vec_zero (by omega), ok_bind, get_vec (by omega), ok_bind, put_vec (by omega), ok_bind, ok_bind,
      get_vec (by omega), ok_bind, put_vec (by omega)]
    simp [cplx]
  · have ho' : o ≠ .add ∧ o ≠ .sub ∧ o ≠ .mul ∧ o ≠ .realScal := by
      push_neg at ho
      exact ⟨ho.1, ho.2.1, ho.2.2, hs⟩
    have hdim : o.dim d d' = max d d' := by
      obtain ⟨h1, h2, h3, h4⟩ := ho'
      cases o <;> first | exact absurd rfl h4 | rfl
    have hdd := accept_real ho' ha
    rw [Bin.real_op ho', hdim]
    have := vectApplyC_map (f := fun _ xs => o.scalar M xs[0]! xs[1]!) (z := z) (L := [(d, x), (d', y)])
      (d := max d d') (by omega) (by simp; omega)
    simp only [List.map_cons, List.map_nil] at this
    rw [this]
    congr 1
    apply vec_congr
    intro k hk
    rw [← Bin.scalar_eq hM ho' hdef hk]
    have e1 : x (if d = max d d' then k else 0) = cst d x k := by
      unfold cst
      by_cases h : d = 1
      · rw [if_pos h]; congr 1; split_ifs <;> omega
      · rw [if_neg h, if_pos (by omega)]
    have e2 : y (if d' = max d d' then k else 0) = cst d' y k := by
      unfold cst
      by_cases h : d' = 1
      · rw [if_pos h]; congr 1; split_ifs <;> omega
      · rw [if_neg h, if_pos (by omega)]
    rw [e1, e2]
    rfl

end Op

end Verif.Cplx
