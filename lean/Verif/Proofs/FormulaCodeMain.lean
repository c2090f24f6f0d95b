import Verif.Proofs.FormulaCode

/-!
# The code of a formula computes its value

First, the effect of renaming a free variable; then the induction on the formula.
-/

namespace Verif

open Spec Finset

section Rename

variable {i c n : Int} {d : Nat}

/-- Renaming of a variable, as in `Factorize_Impl.__call__`. -/
abbrev Expr.ren (e : Expr) (i : Int) (d : Nat) (c n : Int) : Expr := e.replace (.var i d c) (.var n d c)

theorem ren_un {o : Un} {f : Expr} : (Expr.un o f).ren i d c n = .un o (f.ren i d c n) := by
  unfold Expr.ren; rw [Expr.replace, if_neg nofun]

theorem ren_bin {o : Bin} {f g : Expr} :
    (Expr.bin o f g).ren i d c n = .bin o (f.ren i d c n) (g.ren i d c n) := by
  unfold Expr.ren; rw [Expr.replace, if_neg nofun]

theorem ren_tern {o : Tern} {f g h : Expr} : (Expr.tern o f g h).ren i d c n =
    .tern o (f.ren i d c n) (g.ren i d c n) (h.ren i d c n) := by
  unfold Expr.ren; rw [Expr.replace, if_neg nofun]

theorem ren_fact {j c' : Int} {d' : Nat} {f g : Expr} : (Expr.fact j d' c' f g).ren i d c n =
    .fact j d' c' (f.ren i d c n) (g.ren i d c n) := by
  unfold Expr.ren; rw [Expr.replace, if_neg nofun]

theorem ren_zero {k : Nat} : (Expr.zero k).ren i d c n = .zero k := by
  unfold Expr.ren; rw [Expr.replace, if_neg nofun]

theorem ren_int {k : Int} : (Expr.int k).ren i d c n = .int k := by
  unfold Expr.ren; rw [Expr.replace, if_neg nofun]

theorem ren_rat {p q : Int} : (Expr.rat p q).ren i d c n = .rat p q := by
  unfold Expr.ren; rw [Expr.replace, if_neg nofun]

theorem ren_var_self : (Expr.var i d c).ren i d c n = .var n d c := by
  unfold Expr.ren; rw [Expr.replace, if_pos rfl]

theorem ren_var_ne {j c' : Int} {d' : Nat} (h : j ≠ i) :
    (Expr.var j d' c').ren i d c n = .var j d' c' := by
  unfold Expr.ren
  rw [Expr.replace, if_neg]
  intro h'
  simp only [Expr.var.injEq] at h'
  exact h h'.1

/-- `i` can be renamed in `e`: it is not bound, and its occurrences have dimension `d` and category
`c`. -/
structure CanRen (i : Int) (d : Nat) (c : Int) (e : Expr) : Prop where
  bind : i ∉ e.binders
  occ : ∀ t ∈ e.free, t.1 = i → t = (i, d, c)

theorem CanRen.un {o : Un} {f : Expr} (h : CanRen i d c (.un o f)) : CanRen i d c f := ⟨h.1, h.2⟩

theorem CanRen.bin {o : Bin} {f g : Expr} (h : CanRen i d c (.bin o f g)) :
    CanRen i d c f ∧ CanRen i d c g := by
  obtain ⟨h1, h2⟩ := h
  simp only [Expr.binders, Expr.free, List.mem_append, not_or] at h1 h2
  exact ⟨⟨h1.1, fun t ht => h2 t (.inl ht)⟩, ⟨h1.2, fun t ht => h2 t (.inr ht)⟩⟩

theorem CanRen.tern {o : Tern} {f g k : Expr} (h : CanRen i d c (.tern o f g k)) :
    CanRen i d c f ∧ CanRen i d c g ∧ CanRen i d c k := by
  obtain ⟨h1, h2⟩ := h
  simp only [Expr.binders, Expr.free, List.mem_append, not_or] at h1 h2
  exact ⟨⟨h1.1, fun t ht => h2 t (.inl ht)⟩, ⟨h1.2.1, fun t ht => h2 t (.inr (.inl ht))⟩,
    ⟨h1.2.2, fun t ht => h2 t (.inr (.inr ht))⟩⟩

theorem CanRen.fact {j c' : Int} {d' : Nat} {f g : Expr} (h : CanRen i d c (.fact j d' c' f g)) :
    i ≠ j ∧ CanRen i d c f ∧ CanRen i d c g := by
  obtain ⟨h1, h2⟩ := h
  simp only [Expr.binders, List.mem_cons, List.mem_append, not_or] at h1
  refine ⟨h1.1, ⟨h1.2.1, fun t ht hi => h2 t ?_ hi⟩, ⟨h1.2.2, fun t ht => h2 t ?_⟩⟩
  · exact List.mem_append_left _ (List.mem_filter.mpr ⟨ht, by simp [hi, h1.1]⟩)
  · exact List.mem_append_right _ ht

variable {e : Expr}

theorem ren_dim (h : CanRen i d c e) : (e.ren i d c n).dim = e.dim := by
  induction e with
  | var j d' c' =>
    by_cases hj : j = i
    · have := h.occ (j, d', c') (List.mem_singleton.mpr rfl) hj
      simp only [Prod.mk.injEq] at this
      obtain ⟨rfl, rfl, rfl⟩ := this
      rw [ren_var_self]; rfl
    · rw [ren_var_ne hj]
  | zero => rw [ren_zero]
  | int => rw [ren_int]
  | rat => rw [ren_rat]
  | un o f ih => rw [ren_un, Expr.dim, Expr.dim, ih h.un]
  | bin o f g i1 i2 => rw [ren_bin, Expr.dim, Expr.dim, i1 h.bin.1, i2 h.bin.2]
  | tern o f g k i1 i2 i3 =>
    rw [ren_tern, Expr.dim, Expr.dim, i1 h.tern.1, i2 h.tern.2.1, i3 h.tern.2.2]
  | fact j d' c' f g i1 i2 => rw [ren_fact, Expr.dim, Expr.dim, i1 h.fact.2.1]

theorem ren_binders : (e.ren i d c n).binders = e.binders := by
  induction e with
  | var j d' c' =>
    unfold Expr.ren
    rw [Expr.replace]
    split_ifs <;> rfl
  | zero => rw [ren_zero]
  | int => rw [ren_int]
  | rat => rw [ren_rat]
  | un o f ih => rw [ren_un, Expr.binders, Expr.binders, ih]
  | bin o f g i1 i2 => rw [ren_bin, Expr.binders, Expr.binders, i1, i2]
  | tern o f g k i1 i2 i3 => rw [ren_tern, Expr.binders, Expr.binders, i1, i2, i3]
  | fact j d' c' f g i1 i2 => rw [ren_fact, Expr.binders, Expr.binders, i1, i2]

theorem ren_free (h : CanRen i d c e) {t : Int × Nat × Int} (ht : t ∈ (e.ren i d c n).free) :
    (t ∈ e.free ∧ t.1 ≠ i) ∨ t = (n, d, c) := by
  induction e with
  | var j d' c' =>
    by_cases hj : j = i
    · have := h.occ (j, d', c') (List.mem_singleton.mpr rfl) hj
      simp only [Prod.mk.injEq] at this
      obtain ⟨rfl, rfl, rfl⟩ := this
      rw [ren_var_self] at ht
      exact .inr (List.mem_singleton.mp ht)
    · rw [ren_var_ne hj] at ht
      refine .inl ⟨ht, ?_⟩
      rw [List.mem_singleton.mp ht]
      exact hj
  | zero => rw [ren_zero] at ht; cases ht
  | int => rw [ren_int] at ht; cases ht
  | rat => rw [ren_rat] at ht; cases ht
  | un o f ih =>
    rw [ren_un] at ht
    exact ih h.un ht
  | bin o f g i1 i2 =>
    rw [ren_bin] at ht
    rcases List.mem_append.mp ht with ht | ht
    · exact (i1 h.bin.1 ht).imp_left fun h => ⟨List.mem_append_left _ h.1, h.2⟩
    · exact (i2 h.bin.2 ht).imp_left fun h => ⟨List.mem_append_right _ h.1, h.2⟩
  | tern o f g k i1 i2 i3 =>
    rw [ren_tern] at ht
    rcases List.mem_append.mp ht with ht | ht
    · exact (i1 h.tern.1 ht).imp_left fun h => ⟨List.mem_append_left _ h.1, h.2⟩
    · rcases List.mem_append.mp ht with ht | ht
      · exact (i2 h.tern.2.1 ht).imp_left fun h =>
          ⟨List.mem_append_right _ (List.mem_append_left _ h.1), h.2⟩
      · exact (i3 h.tern.2.2 ht).imp_left fun h =>
          ⟨List.mem_append_right _ (List.mem_append_right _ h.1), h.2⟩
  | fact j d' c' f g i1 i2 =>
    rw [ren_fact] at ht
    rcases List.mem_append.mp ht with ht | ht
    · obtain ⟨ht, hj⟩ := List.mem_filter.mp ht
      exact (i1 h.fact.2.1 ht).imp_left fun h =>
        ⟨List.mem_append_left _ (List.mem_filter.mpr ⟨h.1, hj⟩), h.2⟩
    · exact (i2 h.fact.2.2 ht).imp_left fun h => ⟨List.mem_append_right _ h.1, h.2⟩

theorem ren_wf (h : CanRen i d c e) (hw : e.WF) : (e.ren i d c n).WF := by
  induction e with
  | var j d' c' =>
    by_cases hj : j = i
    · have := h.occ (j, d', c') (List.mem_singleton.mpr rfl) hj
      simp only [Prod.mk.injEq] at this
      obtain ⟨rfl, rfl, rfl⟩ := this
      rw [ren_var_self]; exact hw
    · rw [ren_var_ne hj]; exact hw
  | zero => rw [ren_zero]; exact hw
  | int => rw [ren_int]; exact hw
  | rat => rw [ren_rat]; exact hw
  | un o f ih =>
    rw [ren_un, Expr.WF, ren_dim h.un]
    exact ⟨ih h.un hw.1, hw.2⟩
  | bin o f g i1 i2 =>
    rw [ren_bin, Expr.WF, ren_dim h.bin.1, ren_dim h.bin.2]
    exact ⟨i1 h.bin.1 hw.1, i2 h.bin.2 hw.2.1, hw.2.2⟩
  | tern o f g k i1 i2 i3 =>
    rw [ren_tern, Expr.WF, ren_dim h.tern.1, ren_dim h.tern.2.1, ren_dim h.tern.2.2]
    exact ⟨i1 h.tern.1 hw.1, i2 h.tern.2.1 hw.2.1, i3 h.tern.2.2 hw.2.2.1, hw.2.2.2⟩
  | fact j d' c' f g i1 i2 =>
    rw [ren_fact, Expr.WF, ren_dim h.fact.2.2]
    exact ⟨i1 h.fact.2.1 hw.1, i2 h.fact.2.2 hw.2.1, hw.2.2⟩

theorem ren_named (hn : 0 ≤ n) (h : CanRen i d c e) (hw : e.Named) : (e.ren i d c n).Named := by
  induction e with
  | var j d' c' =>
    unfold Expr.ren
    rw [Expr.replace]
    split_ifs <;> trivial
  | zero => rw [ren_zero]; exact hw
  | int => rw [ren_int]; exact hw
  | rat => rw [ren_rat]; exact hw
  | un o f ih => rw [ren_un]; exact ih h.un hw
  | bin o f g i1 i2 => rw [ren_bin]; exact ⟨i1 h.bin.1 hw.1, i2 h.bin.2 hw.2⟩
  | tern o f g k i1 i2 i3 =>
    rw [ren_tern]; exact ⟨i1 h.tern.1 hw.1, i2 h.tern.2.1 hw.2.1, i3 h.tern.2.2 hw.2.2⟩
  | fact j d' c' f g i1 i2 =>
    rw [ren_fact]
    obtain ⟨h1, h2, h3, h4, h5⟩ := hw
    refine ⟨i1 h.fact.2.1 h1, i2 h.fact.2.2 h2, h3, by rw [ren_binders]; exact h4, fun t ht hj => ?_⟩
    rcases ren_free h.fact.2.1 ht with ht | rfl
    · exact h5 t ht.1 hj
    · exact absurd hj (by simp only; omega)

/-- Same value for the renamed formula, when the new variable has the value of the old one. -/
theorem ren_val (hn : 0 ≤ n) (h : CanRen i d c e) (hb : e.Named) {env env' : Env} (h1 : env' n = env i)
    (h2 : ∀ t ∈ e.free, t.1 ≠ i → env' t.1 = env t.1) : (e.ren i d c n).val env' = e.val env := by
  induction e generalizing env env' with
  | var j d' c' =>
    by_cases hj : j = i
    · have := h.occ (j, d', c') (List.mem_singleton.mpr rfl) hj
      simp only [Prod.mk.injEq] at this
      obtain ⟨rfl, rfl, rfl⟩ := this
      rw [ren_var_self, Expr.val, Expr.val, h1]
    · rw [ren_var_ne hj, Expr.val, Expr.val, h2 (j, d', c') (List.mem_singleton.mpr rfl) hj]
  | zero => rw [ren_zero]; rfl
  | int => rw [ren_int]; rfl
  | rat => rw [ren_rat]; rfl
  | un o f ih => rw [ren_un, Expr.val, Expr.val, ren_dim h.un, ih h.un hb h1 h2]
  | bin o f g i1 i2 =>
    rw [ren_bin, Expr.val, Expr.val, ren_dim h.bin.1, ren_dim h.bin.2,
      i1 h.bin.1 hb.1 h1 fun t ht => h2 t (List.mem_append_left _ ht),
      i2 h.bin.2 hb.2 h1 fun t ht => h2 t (List.mem_append_right _ ht)]
  | tern o f g k i1 i2 i3 =>
    rw [ren_tern, Expr.val, Expr.val, i1 h.tern.1 hb.1 h1 fun t ht => h2 t (List.mem_append_left _ ht),
      i2 h.tern.2.1 hb.2.1 h1 fun t ht => h2 t (List.mem_append_right _ (List.mem_append_left _ ht)),
      i3 h.tern.2.2 hb.2.2 h1 fun t ht => h2 t (List.mem_append_right _ (List.mem_append_right _ ht))]
  | fact j d' c' f g i1 i2 =>
    obtain ⟨b1, b2, b3, b4, b5⟩ := hb
    rw [ren_fact, Expr.val, Expr.val,
      i2 h.fact.2.2 b2 h1 fun t ht => h2 t (List.mem_append_right _ ht)]
    refine i1 h.fact.2.1 b1 ?_ fun t ht hi => ?_
    · rw [Function.update_of_ne (by omega), Function.update_of_ne h.fact.1, h1]
    · by_cases hj : t.1 = j
      · rw [hj, Function.update_self, Function.update_self]
      · rw [Function.update_of_ne hj, Function.update_of_ne hj]
        exact h2 t (List.mem_append_left _ (List.mem_filter.mpr ⟨ht, by simp [hj]⟩)) hi

theorem ren_def (hn : 0 ≤ n) (h : CanRen i d c e) (hb : e.Named) {env env' : Env} (h1 : env' n = env i)
    (h2 : ∀ t ∈ e.free, t.1 ≠ i → env' t.1 = env t.1) (hd : e.Def env) : (e.ren i d c n).Def env' := by
  induction e generalizing env env' with
  | var j d' c' =>
    unfold Expr.ren
    rw [Expr.replace]
    split_ifs <;> trivial
  | zero => rw [ren_zero]; trivial
  | int => rw [ren_int]; trivial
  | rat => rw [ren_rat]; trivial
  | un o f ih =>
    rw [ren_un, Expr.Def, ren_dim h.un, ren_val hn h.un hb h1 h2]
    exact ⟨ih h.un hb h1 h2 hd.1, hd.2⟩
  | bin o f g i1 i2 =>
    have e1 : ∀ t ∈ f.free, t.1 ≠ i → env' t.1 = env t.1 := fun t ht => h2 t (List.mem_append_left _ ht)
    have e2 : ∀ t ∈ g.free, t.1 ≠ i → env' t.1 = env t.1 := fun t ht => h2 t (List.mem_append_right _ ht)
    rw [ren_bin, Expr.Def, ren_dim h.bin.1, ren_dim h.bin.2, ren_val hn h.bin.1 hb.1 h1 e1,
      ren_val hn h.bin.2 hb.2 h1 e2]
    exact ⟨i1 h.bin.1 hb.1 h1 e1 hd.1, i2 h.bin.2 hb.2 h1 e2 hd.2.1, hd.2.2⟩
  | tern o f g k i1 i2 i3 =>
    have e1 : ∀ t ∈ f.free, t.1 ≠ i → env' t.1 = env t.1 := fun t ht => h2 t (List.mem_append_left _ ht)
    have e2 : ∀ t ∈ g.free, t.1 ≠ i → env' t.1 = env t.1 :=
      fun t ht => h2 t (List.mem_append_right _ (List.mem_append_left _ ht))
    have e3 : ∀ t ∈ k.free, t.1 ≠ i → env' t.1 = env t.1 :=
      fun t ht => h2 t (List.mem_append_right _ (List.mem_append_right _ ht))
    have hdim := ren_dim (n := n) h
    rw [ren_tern] at hdim
    rw [ren_tern, Expr.Def, hdim, ren_val hn h.tern.1 hb.1 h1 e1,
      ren_val hn h.tern.2.1 hb.2.1 h1 e2, ren_val hn h.tern.2.2 hb.2.2 h1 e3]
    exact ⟨i1 h.tern.1 hb.1 h1 e1 hd.1, i2 h.tern.2.1 hb.2.1 h1 e2 hd.2.1,
      i3 h.tern.2.2 hb.2.2 h1 e3 hd.2.2.1, hd.2.2.2⟩
  | fact j d' c' f g i1 i2 =>
    obtain ⟨b1, b2, b3, b4, b5⟩ := hb
    have e2 : ∀ t ∈ g.free, t.1 ≠ i → env' t.1 = env t.1 := fun t ht => h2 t (List.mem_append_right _ ht)
    rw [ren_fact, Expr.Def, ren_val hn h.fact.2.2 b2 h1 e2]
    refine ⟨i2 h.fact.2.2 b2 h1 e2 hd.1, i1 h.fact.2.1 b1 ?_ (fun t ht hi => ?_) hd.2⟩
    · rw [Function.update_of_ne (by omega), Function.update_of_ne h.fact.1, h1]
    · by_cases hj : t.1 = j
      · rw [hj, Function.update_self, Function.update_self]
      · rw [Function.update_of_ne hj, Function.update_of_ne hj]
        exact h2 t (List.mem_append_left _ (List.mem_filter.mpr ⟨ht, by simp [hj]⟩)) hi

end Rename

/-! ## The table -/

theorem Table.look_holds {tab : Table} {i : Int} {a : CArr} (h0 : 0 ≤ i)
    (h : tab[i.toNat]? = some (some a)) : tab.look i = .ok a := by
  unfold Table.look
  simp only [show ¬ i < 0 by omega, if_false, h]

theorem Table.Holds.append {tab : Table} {env : Env} {e : Expr} (h : tab.Holds env e) (l : Table) :
    Table.Holds (tab ++ l) env e := by
  intro t ht
  obtain ⟨h0, h1⟩ := h t ht
  refine ⟨h0, ?_⟩
  have hlt : t.1.toNat < tab.length := by
    by_contra hge
    rw [List.getElem?_eq_none (by omega)] at h1
    cases h1
  rw [List.getElem?_append_left hlt, h1]

theorem Table.Holds.lt {tab : Table} {env : Env} {e : Expr} (h : tab.Holds env e) {t : Int × Nat × Int}
    (ht : t ∈ e.free) : t.1 < tab.length := by
  obtain ⟨h0, h1⟩ := h t ht
  by_contra hge
  rw [List.getElem?_eq_none (by omega)] at h1
  cases h1

theorem Table.Holds.mono {tab : Table} {env : Env} {e f : Expr} (h : tab.Holds env e)
    (hs : ∀ t ∈ f.free, t ∈ e.free) : tab.Holds env f := fun t ht => h t (hs t ht)

/-! ## The induction -/

theorem vec_eta {out : CArr} {d : Nat} (h : out.length = d) : ∃ z, out = vec d z :=
  ⟨fun k => out.getD k 0, by
    subst h
    apply List.ext_getElem
    · simp [vec]
    · intro n h1 h2
      simp [vec, List.getElem?_eq_getElem h1]⟩

/-- What the code of `e` should do. -/
def CodeOk (M : CMath) (junk : Expr → Nat → ℝ) (e : Expr) : Prop :=
  ∀ (env : Env) (tab : Table) (out : CArr), e.WF → e.Named → e.Def env → tab.Holds env e →
    out.length = e.dim → ∃ m, e.code M junk out tab =
      .ok (vec e.dim (e.val env), tab ++ List.replicate m none)

section
variable {M : CMath} {junk : Expr → Nat → ℝ}

theorem vec_cst {d : Nat} {x : Vec} : vec d (cst d x) = vec d x := vec_congr fun _ hk => cst_lt hk

/-- The argument of an operation. -/
theorem evalArg_ok {e : Expr} (h : CodeOk M junk e) {env : Env} {tab : Table} (h1 : e.WF) (h2 : e.Named)
    (h3 : e.Def env) (h4 : tab.Holds env e) :
    ∃ m, evalArg junk e (fun out tab => e.code M junk out tab) tab =
      .ok (vec e.dim (e.val env), tab ++ List.replicate m none) := by
  by_cases hv : ∃ i d c, e = .var i d c
  · obtain ⟨i, d, c, rfl⟩ := hv
    obtain ⟨h0, h5⟩ := h4 (i, d, c) (List.mem_singleton.mpr rfl)
    refine ⟨0, ?_⟩
    simp only [evalArg]
    rw [Table.look_holds h0 h5, ok_bind, pure_ok]
    simp only [Expr.dim, Expr.val, vec_cst, List.replicate_zero, List.append_nil]
  · have : evalArg junk e (fun out tab => e.code M junk out tab) tab = e.code M junk (newArr junk e) tab := by
      cases e <;> first | rfl | exact absurd ⟨_, _, _, rfl⟩ hv
    rw [this]
    exact h env tab _ h1 h2 h3 h4 (by simp [newArr])

theorem codeOk (hM : M.Exact) (e : Expr) : CodeOk M junk e := by
  suffices H : ∀ N, ∀ e : Expr, e.nodes < N → CodeOk M junk e from H _ e (Nat.lt_succ_self _)
  intro N
  induction N with
  | zero => exact fun e h => absurd h (Nat.not_lt_zero _)
  | succ N ih =>
    intro e hN env tab out hw hb hd ht hout
    obtain ⟨z, rfl⟩ := vec_eta hout
    cases e with
    | var i d c =>
      obtain ⟨h0, h5⟩ := ht (i, d, c) (List.mem_singleton.mpr rfl)
      refine ⟨0, ?_⟩
      rw [Expr.code, Table.look_holds h0 h5, ok_bind, vec_length]
      simp only [Expr.dim, Expr.val]
      rw [vectCopyAt_vec (by omega) (by omega), ok_bind, pure_ok, vec_cst, List.replicate_zero,
        List.append_nil]
      congr 2
      refine vec_congr fun k hk => ?_
      rw [if_pos (by omega)]
      simp
    | zero d =>
      refine ⟨0, ?_⟩
      rw [Expr.code, fill_vec, ok_bind, pure_ok, List.replicate_zero, List.append_nil]
      rfl
    | int k =>
      refine ⟨0, ?_⟩
      rw [Expr.code, List.replicate_zero, List.append_nil]
      simp only [Expr.dim, Expr.val]
      rw [put_vec_zero (by omega), ok_bind, pure_ok]
      rfl
    | rat p q =>
      refine ⟨0, ?_⟩
      rw [Expr.code, List.replicate_zero, List.append_nil]
      simp only [Expr.dim, Expr.val]
      rw [put_vec_zero (by omega), ok_bind, pure_ok]
      rfl
    | un o f =>
      simp only [Expr.nodes] at hN
      obtain ⟨m, hm⟩ := evalArg_ok (ih f (by omega)) hw.1 hb hd.1 ht
      refine ⟨m, ?_⟩
      rw [Expr.code, hm, ok_bind]
      simp only [Expr.dim, Expr.val]
      rw [Un.op_vec hM hw.1.pos hw.2.1 hd.2, ok_bind, pure_ok]
    | bin o f g =>
      simp only [Expr.nodes] at hN
      obtain ⟨m, hm⟩ := evalArg_ok (ih f (by omega)) hw.1 hb.1 hd.1
        (ht.mono fun t h => List.mem_append_left _ h)
      obtain ⟨m', hm'⟩ := evalArg_ok (ih g (by omega)) hw.2.1 hb.2 hd.2.1
        ((ht.mono fun t h => List.mem_append_right _ h).append (List.replicate m none))
      refine ⟨m + m', ?_⟩
      rw [Expr.code, hm, ok_bind]
      simp only
      rw [hm', ok_bind]
      simp only [Expr.dim, Expr.val]
      rw [Bin.op_vec hM hw.1.pos hw.2.1.pos hw.2.2.1 (fun h k => Expr.val_const hw.1 h env k 0)
        (fun h k => Expr.val_const hw.2.1 h env k 0) hd.2.2, ok_bind, pure_ok, List.append_assoc,
        List.replicate_append_replicate]
    | tern o f g k =>
      simp only [Expr.nodes] at hN
      obtain ⟨m1, hm1⟩ := evalArg_ok (ih f (by omega)) hw.1 hb.1 hd.1
        (ht.mono fun t h => List.mem_append_left _ h)
      obtain ⟨m2, hm2⟩ := evalArg_ok (ih g (by omega)) hw.2.1 hb.2.1 hd.2.1
        ((ht.mono fun t h => List.mem_append_right _ (List.mem_append_left _ h)).append
          (List.replicate m1 none))
      obtain ⟨m3, hm3⟩ := evalArg_ok (ih k (by omega)) hw.2.2.1 hb.2.2 hd.2.2.1
        (((ht.mono fun t h => List.mem_append_right _ (List.mem_append_right _ h)).append
          (List.replicate m1 none)).append (List.replicate m2 none))
      refine ⟨m1 + m2 + m3, ?_⟩
      rw [Expr.code, hm1, ok_bind]
      simp only
      rw [hm2, ok_bind]
      simp only
      rw [hm3, ok_bind]
      simp only [Expr.dim, Expr.val]
      have hdef := hd.2.2.2
      simp only [Expr.dim] at hdef
      rw [Tern.op_vec hM hw.1.pos hw.2.1.pos hw.2.2.1.pos hw.2.2.2
        (fun h k => Expr.val_const hw.1 h env k 0) (fun h k => Expr.val_const hw.2.1 h env k 0)
        (fun h k => Expr.val_const hw.2.2.1 h env k 0) hdef, ok_bind, pure_ok, List.append_assoc,
        List.append_assoc, List.replicate_append_replicate, List.replicate_append_replicate,
        Nat.add_assoc]
    | fact i d c f g =>
      simp only [Expr.nodes] at hN
      obtain ⟨b1, b2, b3, b4, b5⟩ := hb
      have hr : CanRen i d c f := ⟨b4, b5⟩
      obtain ⟨m, hm⟩ := ih g (by omega) env tab (newArr junk g) hw.2.1 b2 hd.1
        (ht.mono fun t h => List.mem_append_right _ h) (by simp [newArr])
      set n : Nat := tab.length + m with hn
      have hlen : (tab ++ List.replicate m none).length = n := by simp [hn]
      have hfree : ∀ t ∈ f.free, t.1 ≠ i → t ∈ (Expr.fact i d c f g).free := fun t ht hi =>
        List.mem_append_left _ (List.mem_filter.mpr ⟨ht, by simp [hi]⟩)
      have hne : ∀ t ∈ f.free, t.1 ≠ i → t.1 ≠ (n : Int) := fun t h hi => by
        have := ht.lt (hfree t h hi)
        omega
      have hv1 : (Function.update env (n : Int) (g.val env)) (n : Int) =
          (Function.update env i (g.val env)) i := by
        rw [Function.update_self, Function.update_self]
      have hv2 : ∀ t ∈ f.free, t.1 ≠ i → (Function.update env (n : Int) (g.val env)) t.1 =
          (Function.update env i (g.val env)) t.1 := fun t h hi => by
        rw [Function.update_of_ne (hne t h hi), Function.update_of_ne hi]
      have hn0 : (0 : Int) ≤ (n : Int) := Int.natCast_nonneg _
      obtain ⟨m', hm'⟩ := ih (f.ren i d c n) (by rw [Expr.nodes_rename]; omega)
        (Function.update env (n : Int) (g.val env))
        (tab ++ List.replicate m none ++ [some (vec g.dim (g.val env))]) (vec f.dim z)
        (ren_wf hr hw.1) (ren_named hn0 hr b1) (ren_def hn0 hr b1 hv1 hv2 hd.2) (fun t h => by
          rcases ren_free hr h with ⟨h, hi⟩ | rfl
          · rw [Function.update_of_ne (hne t h hi)]
            exact ((ht.append (List.replicate m none)).append _) t (hfree t h hi)
          · simp only
            refine ⟨hn0, ?_⟩
            rw [Function.update_self, Int.toNat_natCast, ← hlen, List.getElem?_concat_length, hw.2.2])
        (by rw [vec_length, ren_dim hr])
      refine ⟨m + 1 + m', ?_⟩
      rw [Expr.code, hm, ok_bind]
      simp only [Expr.dim, hlen]
      rw [hm', ok_bind, pure_ok, ren_dim hr, ren_val hn0 hr b1 hv1 hv2, Expr.val]
      congr 2
      rw [List.append_assoc _ [_], List.set_append_right _ _ (by omega), hlen, Nat.sub_self]
      simp only [List.singleton_append, List.set_cons_zero]
      rw [show m + 1 + m' = m + (m' + 1) by omega, ← List.replicate_append_replicate, List.append_assoc,
        List.replicate_succ]

end

/-! ## Bounds, for all data and all C functions -/

open Classical in
/-- Exact C functions. -/
noncomputable def realMath : CMath where
  exp := Real.exp
  log := Real.log
  cos := Real.cos
  sin := Real.sin
  acos := Real.arccos
  asin := Real.arcsin
  atan := Real.arctan
  sqrt := Real.sqrt
  abs := fun x => |x|
  floor := fun x => ⌊x⌋
  round := fun x => roundAway x
  pow := fun x m => x ^ m
  powf := fun x y => x ^ y
  atan2 := fun y x => Complex.arg ⟨x, y⟩
  div := fun x y => x / y
  toInt := trunc

theorem realMath_exact : realMath.Exact := by
  constructor <;> intros <;> rfl

theorem Un.op_total {M : CMath} {d : Nat} {x : Vec} {o : Un} (hd : 0 < d) (ha : o.accept d = true)
    (hr : o.InRange) :
    ∃ y, ∀ z, o.op M d (vec (o.dim d) z) (vec d x) = .ok (vec (o.dim d) y) := by
  by_cases ho : o.vectorized = true
  · have hdim : o.dim d = d := by cases o <;> first | rfl | cases ho
    refine ⟨fun k => o.scalar M (x k), fun z => ?_⟩
    rw [Un.op_vectorized ho, hdim]
    have := vectApplyC_map (f := fun _ xs => o.scalar M xs[0]!) (d := d) (z := z) (L := [(d, x)]) hd (by simp)
    simp only [List.map_cons, List.map_nil, if_true] at this
    rw [this]
    rfl
  · refine ⟨unVal o d x, fun z => ?_⟩
    have hdef : unDef o d x := by
      cases o with
      | elem m => exact hr
      | elemT n m => exact hr
      | oneHot n => exact hr.elim
      | _ => first | trivial | exact absurd rfl ho
    rw [← Un.op_vec realMath_exact hd ha hdef (z := z)]
    cases o with
    | oneHot n => exact hr.elim
    | _ => first | rfl | exact absurd rfl ho

theorem Bin.op_total {M : CMath} {d d' : Nat} {x y : Vec} {o : Bin} (hd : 0 < d) (hd' : 0 < d')
    (ha : o.accept d d' = true) :
    ∃ w, ∀ z, o.op M d d' (vec (o.dim d d') z) (vec d x) (vec d' y) = .ok (vec (o.dim d d') w) := by
  by_cases ho : o.vectorized = true
  · have hdim : o.dim d d' = max d d' := by cases o <;> first | rfl | cases ho
    have hok : dimsOk [d, d'] = true := by cases o <;> first | exact ha | cases ho
    have hdd := (dimsOk_pair hd hd').mp hok
    refine ⟨fun k => o.scalar M (x (if d = max d d' then k else 0)) (y (if d' = max d d' then k else 0)),
      fun z => ?_⟩
    rw [Bin.op_vectorized ho, hdim]
    have := vectApplyC_map (f := fun _ xs => o.scalar M xs[0]! xs[1]!) (d := max d d') (z := z)
      (L := [(d, x), (d', y)]) (by omega) (by
        intro q hq
        simp only [List.mem_cons, List.not_mem_nil, or_false] at hq
        rcases hq with rfl | rfl <;> simp only <;> omega)
    simp only [List.map_cons, List.map_nil] at this
    rw [this]
    rfl
  · -- the value does not depend on the components outside of the arrays
    refine ⟨binVal o d d' (cst d x) (cst d' y), fun z => ?_⟩
    have hdef : binDef o d d' (cst d x) (cst d' y) := by
      cases o <;> first | trivial | exact absurd rfl ho
    have e := Bin.op_vec realMath_exact hd hd' ha (x := cst d x) (y := cst d' y) (z := z)
      (fun h k => by simp [cst, h]) (fun h k => by simp [cst, h]) hdef
    rw [vec_cst, vec_cst] at e
    rw [← e]
    cases o <;> first | rfl | exact absurd rfl ho

theorem Tern.op_total {M : CMath} {x y w : Vec} {o : Tern} {d1 d2 d3 : Nat} (h1 : 0 < d1) (h2 : 0 < d2)
    (h3 : 0 < d3) (ha : dimsOk [d1, d2, d3] = true) :
    ∃ u, ∀ z, o.op M (vec (max (max d1 d2) d3) z) (vec d1 x) (vec d2 y) (vec d3 w) =
      .ok (vec (max (max d1 d2) d3) u) := by
  have hdd := (dimsOk_triple h1 h2 h3).mp ha
  refine ⟨fun k => o.scalar M (x (if d1 = max (max d1 d2) d3 then k else 0))
    (y (if d2 = max (max d1 d2) d3 then k else 0)) (w (if d3 = max (max d1 d2) d3 then k else 0)),
    fun z => ?_⟩
  have := vectApplyC_map (f := fun _ xs => o.scalar M xs[0]! xs[1]! xs[2]!) (d := max (max d1 d2) d3)
    (z := z) (L := [(d1, x), (d2, y), (d3, w)]) (by omega) (by
      intro q hq
      simp only [List.mem_cons, List.not_mem_nil, or_false] at hq
      rcases hq with rfl | rfl | rfl <;> simp only <;> omega)
  simp only [List.map_cons, List.map_nil] at this
  unfold Tern.op
  rw [this]
  rfl

theorem ren_inRange {i c n : Int} {d : Nat} {e : Expr} (h : e.InRange) : (e.ren i d c n).InRange := by
  induction e with
  | var j d' c' =>
    unfold Expr.ren
    rw [Expr.replace]
    split_ifs <;> trivial
  | zero => rw [ren_zero]; trivial
  | int => rw [ren_int]; trivial
  | rat => rw [ren_rat]; trivial
  | un o f ih => rw [ren_un]; exact ⟨ih h.1, h.2⟩
  | bin o f g i1 i2 => rw [ren_bin]; exact ⟨i1 h.1, i2 h.2⟩
  | tern o f g k i1 i2 i3 => rw [ren_tern]; exact ⟨i1 h.1, i2 h.2.1, i3 h.2.2⟩
  | fact j d' c' f g i1 i2 => rw [ren_fact]; exact ⟨i1 h.1, i2 h.2⟩

/-- The code of `e` stays inside the arrays, and what it writes depends neither on the previous content of
the output nor on uninitialised memory. -/
def CodeSafe (M : CMath) (e : Expr) : Prop :=
  ∀ (env : Env) (tab : Table), e.WF → e.Named → e.InRange → tab.Holds env e →
    ∃ y m, ∀ (junk : Expr → Nat → ℝ) (out : CArr), out.length = e.dim → e.code M junk out tab =
      .ok (vec e.dim y, tab ++ List.replicate m none)

theorem evalArg_safe {M : CMath} {e : Expr} (h : CodeSafe M e) {env : Env} {tab : Table} (h1 : e.WF)
    (h2 : e.Named) (h3 : e.InRange) (h4 : tab.Holds env e) :
    ∃ y m, ∀ junk : Expr → Nat → ℝ, evalArg junk e (fun out tab => e.code M junk out tab) tab =
      .ok (vec e.dim y, tab ++ List.replicate m none) := by
  by_cases hv : ∃ i d c, e = .var i d c
  · obtain ⟨i, d, c, rfl⟩ := hv
    obtain ⟨h0, h5⟩ := h4 (i, d, c) (List.mem_singleton.mpr rfl)
    refine ⟨env i, 0, fun junk => ?_⟩
    simp only [evalArg]
    rw [Table.look_holds h0 h5, ok_bind, pure_ok]
    simp only [Expr.dim, List.replicate_zero, List.append_nil]
  · have : ∀ junk, evalArg junk e (fun out tab => e.code M junk out tab) tab =
        e.code M junk (newArr junk e) tab := by
      intro junk
      cases e <;> first | rfl | exact absurd ⟨_, _, _, rfl⟩ hv
    obtain ⟨y, m, hy⟩ := h env tab h1 h2 h3 h4
    refine ⟨y, m, fun junk => ?_⟩
    rw [this]
    exact hy junk _ (by simp [newArr])

theorem codeSafe {M : CMath} (e : Expr) : CodeSafe M e := by
  suffices H : ∀ N, ∀ e : Expr, e.nodes < N → CodeSafe M e from H _ e (Nat.lt_succ_self _)
  intro N
  induction N with
  | zero => exact fun e h => absurd h (Nat.not_lt_zero _)
  | succ N ih =>
    intro e hN env tab hw hb hr ht
    cases e with
    | var i d c =>
      obtain ⟨h0, h5⟩ := ht (i, d, c) (List.mem_singleton.mpr rfl)
      refine ⟨env i, 0, fun junk out hout => ?_⟩
      obtain ⟨z, rfl⟩ := vec_eta hout
      rw [Expr.code, Table.look_holds h0 h5, ok_bind, vec_length]
      simp only [Expr.dim]
      rw [vectCopyAt_vec (by omega) (by omega), ok_bind, pure_ok, List.replicate_zero, List.append_nil]
      congr 2
      refine vec_congr fun k hk => ?_
      rw [if_pos (by omega)]
      simp
    | zero d =>
      refine ⟨fun _ => 0, 0, fun junk out hout => ?_⟩
      obtain ⟨z, rfl⟩ := vec_eta hout
      rw [Expr.code, fill_vec, ok_bind, pure_ok, List.replicate_zero, List.append_nil]
    | int k =>
      refine ⟨fun _ => k, 0, fun junk out hout => ?_⟩
      obtain ⟨z, rfl⟩ := vec_eta hout
      rw [Expr.code, List.replicate_zero, List.append_nil]
      simp only [Expr.dim]
      rw [put_vec_zero (by omega), ok_bind, pure_ok]
      rfl
    | rat p q =>
      refine ⟨fun _ => p / q, 0, fun junk out hout => ?_⟩
      obtain ⟨z, rfl⟩ := vec_eta hout
      rw [Expr.code, List.replicate_zero, List.append_nil]
      simp only [Expr.dim]
      rw [put_vec_zero (by omega), ok_bind, pure_ok]
      rfl
    | un o f =>
      simp only [Expr.nodes] at hN
      obtain ⟨x, m, hm⟩ := evalArg_safe (ih f (by omega)) hw.1 hb hr.1 ht
      obtain ⟨y, hy⟩ := Un.op_total (M := M) (x := x) hw.1.pos hw.2.1 hr.2
      refine ⟨y, m, fun junk out hout => ?_⟩
      obtain ⟨z, rfl⟩ := vec_eta hout
      rw [Expr.code, hm, ok_bind]
      simp only [Expr.dim]
      rw [hy, ok_bind, pure_ok]
    | bin o f g =>
      simp only [Expr.nodes] at hN
      obtain ⟨x, m, hm⟩ := evalArg_safe (ih f (by omega)) hw.1 hb.1 hr.1
        (ht.mono fun t h => List.mem_append_left _ h)
      obtain ⟨x', m', hm'⟩ := evalArg_safe (ih g (by omega)) hw.2.1 hb.2 hr.2
        ((ht.mono fun t h => List.mem_append_right _ h).append (List.replicate m none))
      obtain ⟨y, hy⟩ := Bin.op_total (M := M) (x := x) (y := x') hw.1.pos hw.2.1.pos hw.2.2.1
      refine ⟨y, m + m', fun junk out hout => ?_⟩
      obtain ⟨z, rfl⟩ := vec_eta hout
      rw [Expr.code, hm, ok_bind]
      simp only
      rw [hm', ok_bind]
      simp only [Expr.dim]
      rw [hy, ok_bind, pure_ok, List.append_assoc, List.replicate_append_replicate]
    | tern o f g k =>
      simp only [Expr.nodes] at hN
      obtain ⟨x1, m1, hm1⟩ := evalArg_safe (ih f (by omega)) hw.1 hb.1 hr.1
        (ht.mono fun t h => List.mem_append_left _ h)
      obtain ⟨x2, m2, hm2⟩ := evalArg_safe (ih g (by omega)) hw.2.1 hb.2.1 hr.2.1
        ((ht.mono fun t h => List.mem_append_right _ (List.mem_append_left _ h)).append
          (List.replicate m1 none))
      obtain ⟨x3, m3, hm3⟩ := evalArg_safe (ih k (by omega)) hw.2.2.1 hb.2.2 hr.2.2
        (((ht.mono fun t h => List.mem_append_right _ (List.mem_append_right _ h)).append
          (List.replicate m1 none)).append (List.replicate m2 none))
      obtain ⟨y, hy⟩ := Tern.op_total (M := M) (o := o) (x := x1) (y := x2) (w := x3) hw.1.pos hw.2.1.pos
        hw.2.2.1.pos hw.2.2.2
      refine ⟨y, m1 + m2 + m3, fun junk out hout => ?_⟩
      obtain ⟨z, rfl⟩ := vec_eta hout
      rw [Expr.code, hm1, ok_bind]
      simp only
      rw [hm2, ok_bind]
      simp only
      rw [hm3, ok_bind]
      simp only [Expr.dim]
      rw [hy, ok_bind, pure_ok, List.append_assoc, List.append_assoc, List.replicate_append_replicate,
        List.replicate_append_replicate, Nat.add_assoc]
    | fact i d c f g =>
      simp only [Expr.nodes] at hN
      obtain ⟨b1, b2, b3, b4, b5⟩ := hb
      have hren : CanRen i d c f := ⟨b4, b5⟩
      obtain ⟨x, m, hm⟩ := ih g (by omega) env tab hw.2.1 b2 hr.2
        (ht.mono fun t h => List.mem_append_right _ h)
      set n : Nat := tab.length + m with hn
      have hlen : (tab ++ List.replicate m none).length = n := by simp [hn]
      have hfree : ∀ t ∈ f.free, t.1 ≠ i → t ∈ (Expr.fact i d c f g).free := fun t ht hi =>
        List.mem_append_left _ (List.mem_filter.mpr ⟨ht, by simp [hi]⟩)
      have hne : ∀ t ∈ f.free, t.1 ≠ i → t.1 ≠ (n : Int) := fun t h hi => by
        have := ht.lt (hfree t h hi)
        omega
      have hn0 : (0 : Int) ≤ (n : Int) := Int.natCast_nonneg _
      obtain ⟨y, m', hm'⟩ := ih (f.ren i d c n) (by rw [Expr.nodes_rename]; omega)
        (Function.update env (n : Int) x)
        (tab ++ List.replicate m none ++ [some (vec g.dim x)])
        (ren_wf hren hw.1) (ren_named hn0 hren b1) (ren_inRange hr.1) (fun t h => by
          rcases ren_free hren h with ⟨h, hi⟩ | rfl
          · rw [Function.update_of_ne (hne t h hi)]
            exact ((ht.append (List.replicate m none)).append _) t (hfree t h hi)
          · simp only
            refine ⟨hn0, ?_⟩
            rw [Function.update_self, Int.toNat_natCast, ← hlen, List.getElem?_concat_length, hw.2.2])
      refine ⟨y, m + 1 + m', fun junk out hout => ?_⟩
      rw [Expr.code, hm junk _ (by simp [newArr]), ok_bind]
      simp only [Expr.dim, hlen]
      rw [hm' junk out (by rw [ren_dim hren]; exact hout), ok_bind, pure_ok, ren_dim hren]
      congr 2
      rw [List.append_assoc _ [_], List.set_append_right _ _ (by omega), hlen, Nat.sub_self]
      simp only [List.singleton_append, List.set_cons_zero]
      rw [show m + 1 + m' = m + (m' + 1) by omega, ← List.replicate_append_replicate, List.append_assoc,
        List.replicate_succ]

end Verif
