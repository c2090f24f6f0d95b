import Verif.Proofs.FormulaCodeMain
import Verif.Proofs.Term
import Verif.Proofs.Factorize
import Verif.Proofs.Exec
import Verif.Model.FormulaCall

/-!
# Variables and positions of compiled and factorized formulas
-/

namespace Verif

open Spec Finset

/-- The variables satisfy `S`, there is no factorization and the operations satisfy `R`. -/
def structDom (S : Int → Nat → Int → Prop) (R : Un → Prop) : Domain where
  var := S
  fact _ _ _ := False
  un o _ _ := R o
  bin _ _ _ _ _ := True
  tern _ _ _ _ _ _ _ := True

theorem dom_struct {S : Int → Nat → Int → Prop} {R : Un → Prop} {e : Expr} {env : Env}
    (h : e.Dom (structDom S R) env) : e.FactFree ∧ ∀ t ∈ e.vars, S t.1 t.2.1 t.2.2 := by
  induction e with
  | var i d c =>
    refine ⟨trivial, fun t ht => ?_⟩
    rw [List.mem_singleton.mp ht]
    exact h
  | zero | int | rat => exact ⟨trivial, fun t ht => nomatch ht⟩
  | un o f ih => exact ih h.1
  | bin o f g i1 i2 =>
    refine ⟨⟨(i1 h.1).1, (i2 h.2.1).1⟩, fun t ht => ?_⟩
    rcases List.mem_append.mp ht with ht | ht
    · exact (i1 h.1).2 t ht
    · exact (i2 h.2.1).2 t ht
  | tern o f g k i1 i2 i3 =>
    refine ⟨⟨(i1 h.1).1, (i2 h.2.1).1, (i3 h.2.2.1).1⟩, fun t ht => ?_⟩
    rcases List.mem_append.mp ht with ht | ht
    · exact (i1 h.1).2 t ht
    · rcases List.mem_append.mp ht with ht | ht
      · exact (i2 h.2.1).2 t ht
      · exact (i3 h.2.2.1).2 t ht
  | fact => exact h.1.elim

theorem dom_inRange {S : Int → Nat → Int → Prop} {e : Expr} {env : Env}
    (h : e.Dom (structDom S Un.InRange) env) : e.InRange := by
  induction e with
  | var | zero | int | rat => trivial
  | un o f ih =>
    refine ⟨ih h.1, ?_⟩
    have := h.2
    cases o <;> first | exact this | trivial
  | bin o f g i1 i2 => exact ⟨i1 h.1, i2 h.2.1⟩
  | tern o f g k i1 i2 i3 => exact ⟨i1 h.1, i2 h.2.1, i3 h.2.2.1⟩
  | fact => exact h.1.elim

section Compile

variable {S : Int → Nat → Int → Prop} {R : Un → Prop} {n : Nat} {env : Env}

/-- Well formed and in the domain. -/
def Ok' (S : Int → Nat → Int → Prop) (R : Un → Prop) (env : Env) (e : Expr) : Prop :=
  e.WF ∧ e.Dom (structDom S R) env

theorem structBuild {q : Req} {r : Expr} (hq : q.Pre) (hd : q.Dom (structDom S R) env)
    (h : build n q = .ok r) : Ok' S R env r :=
  have := build_post (Δ := structDom S R) hq h
  ⟨this.wf, (this.sem env hd).1⟩

theorem structMul {a b r : Expr} (ha : Ok' S R env a) (hb : Ok' S R env b)
    (h : build n (.mul a b) = .ok r) : Ok' S R env r := structBuild (q := .mul a b) ⟨ha.1, hb.1⟩ ⟨ha.2, hb.2⟩ h

theorem structSub {a b r : Expr} (ha : Ok' S R env a) (hb : Ok' S R env b)
    (h : build n (.sub a b) = .ok r) : Ok' S R env r := structBuild (q := .sub a b) ⟨ha.1, hb.1⟩ ⟨ha.2, hb.2⟩ h

theorem structSum {a r : Expr} (ha : Ok' S R env a) (h : build n (.sum a) = .ok r) : Ok' S R env r :=
  structBuild (q := .sum a) ha.1 ha.2 h

theorem structSquare {f r : Expr} (hf : Ok' S R env f) (h : square f = .ok r) : Ok' S R env r := by
  obtain ⟨h1, -, -, h4⟩ := square_ok hf.1 h
  exact ⟨h1, (h4 _ env hf.2).1⟩

theorem structUn {o : Un} {f r : Expr} (hf : Ok' S R env f) (hd : 0 < o.dim f.dim) (ho : ∀ n, o ≠ .sumT n)
    (hr : R o) (h : mkUn o f = .ok r) : Ok' S R env r := by
  refine ⟨(mkUn_rep hf.1 hd ho h).wf, ?_⟩
  obtain ⟨rfl, -⟩ := mkUn_ok h
  refine ⟨hf.2, ?_⟩
  cases o <;> first | trivial | exact hr

theorem structBin {o : Bin} {f g r : Expr} (hf : Ok' S R env f) (hg : Ok' S R env g)
    (h : mkBin o f g = .ok r) : Ok' S R env r := by
  refine ⟨(mkBin_rep hf.1 hg.1 h).wf, ?_⟩
  obtain ⟨rfl, -⟩ := mkBin_ok h
  refine ⟨hf.2, hg.2, ?_⟩
  cases o <;> trivial

theorem structTern {o : Tern} {f g k r : Expr} (hf : Ok' S R env f) (hg : Ok' S R env g)
    (hk : Ok' S R env k) (h : mkTern o f g k = .ok r) : Ok' S R env r := by
  refine ⟨(mkTern_rep hf.1 hg.1 hk.1 h).wf, ?_⟩
  unfold mkTern at h
  split at h
  · cases h
    exact ⟨hf.2, hg.2, hk.2, trivial⟩
  · cases h

theorem structPow (hR : ∀ m, R (.pow m)) {f r : Expr} {m : Int} (hf : Ok' S R env f)
    (h : pow f m = .ok r) : Ok' S R env r := by
  unfold pow at h
  split_ifs at h with hm
  · cases h; exact hf
  · exact structUn (o := .pow m) hf hf.1.pos (fun n h => by cases h) (hR m) h

theorem structOpPow (hR : ∀ m, R (.pow m)) {f r : Expr} {m : Int} (hf : Ok' S R env f)
    (h : opPow f m = .ok r) : Ok' S R env r := by
  unfold opPow at h
  split_ifs at h with hm
  · exact structSquare hf h
  · exact structPow hR hf h

theorem structSqNorm2 {f r : Expr} (hf : Ok' S R env f) (h : mkSqNorm2 n f = .ok r) : Ok' S R env r := by
  obtain ⟨s, h1, h2⟩ := bind_ok h
  exact structSum (structSquare hf (show square f = .ok s from h1)) h2

theorem structWeighted {a x r : Expr} (ha : Ok' S R env a) (hx : Ok' S R env x)
    (h : mkWeightedSqNorm n a x = .ok r ∨ mkSqNormIso n a x = .ok r ∨ mkSqNormDiag n a x = .ok r ∨
      mkSymSqNorm n a x = .ok r) : Ok' S R env r := by
  have h1 : mkSqNormIso n a x = .ok r → Ok' S R env r := fun h => by
    obtain ⟨t, h1, h2⟩ := bind_ok h
    exact structMul ha (structSqNorm2 hx h1) h2
  have h2 : mkSqNormDiag n a x = .ok r → Ok' S R env r := fun h => by
    obtain ⟨t, h1, h2⟩ := bind_ok h
    obtain ⟨u, h3, h4⟩ := bind_ok h2
    exact structSum (structMul ha (structSquare hx h1) h3) h4
  have h3 : mkSymSqNorm n a x = .ok r → Ok' S R env r := fun h => by
    obtain ⟨t, h1, h2⟩ := bind_ok h
    obtain ⟨u, h3, h4⟩ := bind_ok h2
    exact structSum (structMul ha (structBin hx hx h1) h3) h4
  rcases h with h | h | h | h
  · unfold mkWeightedSqNorm at h
    split_ifs at h
    · exact h1 h
    · exact h2 h
    · exact h3 h
  · exact h1 h
  · exact h2 h
  · exact h3 h

theorem structCallUn {o : Un} {f r : Expr} (hf : Ok' S R env f) (hd : 0 < o.dim f.dim) (hr : R o)
    (h : callUn n o f = .ok r) : Ok' S R env r := by
  unfold callUn at h
  split at h
  · exact structSquare hf h
  · exact structBuild (q := .minus f) hf.1 hf.2 h
  · unfold pow at h
    split_ifs at h with hm
    · cases h; exact hf
    · exact structUn (o := .pow _) hf hf.1.pos (fun n h => by cases h) hr h
  · exact structSum hf h
  · obtain ⟨-, h1, -, -, h4⟩ := sumT_ok hf.1 hd h
    exact ⟨h1, (h4 _ env hf.2).1⟩
  · rename_i hn
    exact structUn hf hd (fun d hd => hn d hd) hr h

theorem structCallBin {o : Bin} {f g r : Expr} (hf : Ok' S R env f) (hg : Ok' S R env g)
    (h : callBin n o f g = .ok r) : Ok' S R env r := by
  unfold callBin at h
  split at h
  · exact structBuild (q := .add f g) ⟨hf.1, hg.1⟩ ⟨hf.2, hg.2⟩ h
  · exact structSub hf hg h
  · exact structMul hf hg h
  · exact structBuild (q := .div f g) ⟨hf.1, hg.1⟩ ⟨hf.2, hg.2, trivial⟩ h
  · exact structBuild (q := .scalprod f g) ⟨hf.1, hg.1⟩ ⟨hf.2, hg.2⟩ h
  · exact structBin hf hg h

/-- The operations written by the user satisfy `R`. -/
def Term.AllUn (R : Un → Prop) : Term → Prop
  | .var _ _ _ | .zero _ | .int _ | .rat _ _ | .intInv _ => True
  | .rdiv _ f | .rpow f _ | .sqNorm2 f | .norm2 f | .normalize f => f.AllUn R
  | .un o f => f.AllUn R ∧ R o
  | .bin _ f g => f.AllUn R ∧ g.AllUn R
  | .tern _ f g h => f.AllUn R ∧ g.AllUn R ∧ h.AllUn R
  | .sqDist f g | .sqNormIso f g | .sqNormDiag f g | .symSqNorm f g | .weightedSqNorm f g =>
    f.AllUn R ∧ g.AllUn R
  | .weightedSqDist s f g => s.AllUn R ∧ f.AllUn R ∧ g.AllUn R

theorem compile_struct (hR1 : ∀ m, R (.pow m)) (hR2 : R .inv) (hR3 : R .sqrt) (hR4 : R .rsqrt) {t : Term}
    (hp : t.Pos) (hv : ∀ v ∈ t.vars, S v.1 v.2.1 v.2.2) (ht : t.AllUn R) {e : Expr}
    (h : t.compile n = .ok e) : Ok' S R env e := by
  induction t generalizing e with
  | var i d c => cases h; exact ⟨hp, hv (i, d, c) (List.mem_singleton.mpr rfl)⟩
  | zero d => cases h; exact ⟨hp, trivial⟩
  | int m => cases h; exact ⟨intCst_wf m, intCst_def m env⟩
  | rat p q =>
    obtain ⟨h1, -, -, h4, -⟩ := ratCst_ok (show ratCst p q = .ok e from h)
    exact ⟨h1, h4 _ env⟩
  | intInv m =>
    obtain ⟨h1, -, -, h4, -⟩ := ratCst_ok (show ratCst 1 m = .ok e from h)
    exact ⟨h1, h4 _ env⟩
  | rdiv m f ih =>
    obtain ⟨f', h1, h2⟩ := bind_ok h
    have hf := ih hp hv ht h1
    split_ifs at h2 with hm
    · exact structUn (o := .inv) hf hf.1.pos (fun n h => by cases h) hR2 h2
    · exact structBuild (q := .div (intCst m) f') ⟨intCst_wf m, hf.1⟩ ⟨intCst_def m env, hf.2, trivial⟩ h2
  | rpow f m ih =>
    obtain ⟨f', h1, h2⟩ := bind_ok h
    exact structOpPow hR1 (ih hp hv ht h1) h2
  | un o f ih =>
    obtain ⟨f', h1, h2⟩ := bind_ok h
    have hf := ih hp.1 hv ht.1 h1
    exact structCallUn hf (Un.dim_pos hf.1.pos hp.2) ht.2 h2
  | bin o f g i1 i2 =>
    obtain ⟨f', h1, h⟩ := bind_ok h
    obtain ⟨g', h2, h⟩ := bind_ok h
    exact structCallBin (i1 hp.1 (fun v h => hv v (List.mem_append_left _ h)) ht.1 h1)
      (i2 hp.2 (fun v h => hv v (List.mem_append_right _ h)) ht.2 h2) h
  | tern o f g k i1 i2 i3 =>
    obtain ⟨f', h1, h⟩ := bind_ok h
    obtain ⟨g', h2, h⟩ := bind_ok h
    obtain ⟨k', h3, h⟩ := bind_ok h
    exact structTern (i1 hp.1 (fun v h => hv v (List.mem_append_left _ h)) ht.1 h1)
      (i2 hp.2.1 (fun v h => hv v (List.mem_append_right _ (List.mem_append_left _ h))) ht.2.1 h2)
      (i3 hp.2.2 (fun v h => hv v (List.mem_append_right _ (List.mem_append_right _ h))) ht.2.2 h3) h
  | sqNorm2 f ih =>
    obtain ⟨f', h1, h2⟩ := bind_ok h
    exact structSqNorm2 (ih hp hv ht h1) h2
  | sqDist f g i1 i2 =>
    obtain ⟨f', h1, h⟩ := bind_ok h
    obtain ⟨g', h2, h⟩ := bind_ok h
    obtain ⟨d, h3, h⟩ := bind_ok h
    exact structSqNorm2 (structSub (i1 hp.1 (fun v h => hv v (List.mem_append_left _ h)) ht.1 h1)
      (i2 hp.2 (fun v h => hv v (List.mem_append_right _ h)) ht.2 h2) h3) h
  | norm2 f ih =>
    obtain ⟨f', h1, h⟩ := bind_ok h
    obtain ⟨s, h2, h⟩ := bind_ok h
    have hf := ih hp hv ht h1
    have hs : Ok' S R env s := structBuild (q := .scalprod f' f') ⟨hf.1, hf.1⟩ ⟨hf.2, hf.2⟩ h2
    exact structUn (o := .sqrt) hs hs.1.pos (fun n h => by cases h) hR3 h
  | normalize f ih =>
    obtain ⟨f', h1, h⟩ := bind_ok h
    obtain ⟨s, h2, h⟩ := bind_ok h
    obtain ⟨r, h3, h⟩ := bind_ok h
    have hf := ih hp hv ht h1
    have hs := structSqNorm2 hf h2
    exact structMul (structUn (o := .rsqrt) hs hs.1.pos (fun n h => by cases h) hR4 h3) hf h
  | sqNormIso s f i1 i2 =>
    obtain ⟨s', h1, h⟩ := bind_ok h
    obtain ⟨f', h2, h⟩ := bind_ok h
    exact structWeighted (i1 hp.1 (fun v h => hv v (List.mem_append_left _ h)) ht.1 h1)
      (i2 hp.2 (fun v h => hv v (List.mem_append_right _ h)) ht.2 h2) (.inr (.inl h))
  | sqNormDiag s f i1 i2 =>
    obtain ⟨s', h1, h⟩ := bind_ok h
    obtain ⟨f', h2, h⟩ := bind_ok h
    exact structWeighted (i1 hp.1 (fun v h => hv v (List.mem_append_left _ h)) ht.1 h1)
      (i2 hp.2 (fun v h => hv v (List.mem_append_right _ h)) ht.2 h2) (.inr (.inr (.inl h)))
  | symSqNorm s f i1 i2 =>
    obtain ⟨s', h1, h⟩ := bind_ok h
    obtain ⟨f', h2, h⟩ := bind_ok h
    exact structWeighted (i1 hp.1 (fun v h => hv v (List.mem_append_left _ h)) ht.1 h1)
      (i2 hp.2 (fun v h => hv v (List.mem_append_right _ h)) ht.2 h2) (.inr (.inr (.inr h)))
  | weightedSqNorm s f i1 i2 =>
    obtain ⟨s', h1, h⟩ := bind_ok h
    obtain ⟨f', h2, h⟩ := bind_ok h
    exact structWeighted (i1 hp.1 (fun v h => hv v (List.mem_append_left _ h)) ht.1 h1)
      (i2 hp.2 (fun v h => hv v (List.mem_append_right _ h)) ht.2 h2) (.inl h)
  | weightedSqDist s f g i0 i1 i2 =>
    obtain ⟨s', h0, h⟩ := bind_ok h
    obtain ⟨f', h1, h⟩ := bind_ok h
    obtain ⟨g', h2, h⟩ := bind_ok h
    obtain ⟨d, h3, h⟩ := bind_ok h
    exact structWeighted (i0 hp.1 (fun v h => hv v (List.mem_append_left _ h)) ht.1 h0)
      (structSub (i1 hp.2.1 (fun v h => hv v (List.mem_append_right _ (List.mem_append_left _ h))) ht.2.1 h1)
        (i2 hp.2.2 (fun v h => hv v (List.mem_append_right _ (List.mem_append_right _ h))) ht.2.2 h2) h3)
      (.inl h)

end Compile

theorem Term.allUn_true (t : Term) : t.AllUn fun _ => True := by
  induction t <;> simp_all [Term.AllUn]

theorem Term.InRange.allUn {t : Term} (h : t.InRange) : t.AllUn Un.InRange := by
  induction t <;> simp_all [Term.AllUn, Term.InRange]

/-- A compiled formula has no factorization, and its variables are among those written by the user. -/
theorem compile_vars {n : Nat} {t : Term} (hp : t.Pos) {e : Expr} (h : t.compile n = .ok e) :
    e.FactFree ∧ ∀ v ∈ e.vars, v ∈ t.vars :=
  dom_struct (compile_struct (S := fun i d c => (i, d, c) ∈ t.vars) (R := fun _ => True)
    (env := fun _ _ => 0) (fun _ => trivial) trivial trivial trivial hp (fun _ h => h) t.allUn_true h).2

theorem compile_inRange {n : Nat} {t : Term} (hp : t.Pos) (hr : t.InRange) {e : Expr}
    (h : t.compile n = .ok e) : e.InRange :=
  dom_inRange (compile_struct (S := fun _ _ _ => True) (R := Un.InRange)
    (env := fun _ _ => 0) (fun _ => trivial) trivial trivial trivial hp (fun _ _ => trivial) hr.allUn h).2

/-! ## Formulas without factorization, and factorized formulas -/

variable {e : Expr}

theorem Expr.FactFree.binders (h : e.FactFree) : e.binders = [] := by
  induction e with
  | var | zero | int | rat => rfl
  | un o f ih => exact ih h
  | bin o f g i1 i2 => rw [Expr.binders, i1 h.1, i2 h.2]; rfl
  | tern o f g k i1 i2 i3 => rw [Expr.binders, i1 h.1, i2 h.2.1, i3 h.2.2]; rfl
  | fact => exact h.elim

theorem Expr.FactFree.named (h : e.FactFree) : e.Named := by
  induction e with
  | var | zero | int | rat => trivial
  | un o f ih => exact ih h
  | bin o f g i1 i2 => exact ⟨i1 h.1, i2 h.2⟩
  | tern o f g k i1 i2 i3 => exact ⟨i1 h.1, i2 h.2.1, i3 h.2.2⟩
  | fact => exact h.elim

theorem Expr.free_vars {t : Int × Nat × Int} (h : t ∈ e.free) : t ∈ e.vars := by
  induction e with
  | var | zero | int | rat => exact h
  | un o f ih => exact ih h
  | bin o f g i1 i2 =>
    rcases List.mem_append.mp h with h | h
    · exact List.mem_append_left _ (i1 h)
    · exact List.mem_append_right _ (i2 h)
  | tern o f g k i1 i2 i3 =>
    rcases List.mem_append.mp h with h | h
    · exact List.mem_append_left _ (i1 h)
    · rcases List.mem_append.mp h with h | h
      · exact List.mem_append_right _ (List.mem_append_left _ (i2 h))
      · exact List.mem_append_right _ (List.mem_append_right _ (i3 h))
  | fact i d c f g i1 i2 =>
    rcases List.mem_append.mp h with h | h
    · exact List.mem_append_left _ (i1 (List.mem_filter.mp h).1)
    · exact List.mem_append_right _ (i2 h)

theorem Expr.Scoped.binders (h : e.Scoped) : ∀ i, i ∈ e.binders ↔ i ∈ e.tempVars.map (·.1) := by
  induction e with
  | fact i d c f g i1 i2 =>
    intro j
    rw [Expr.binders, h.2.1.binders, List.append_nil, List.mem_cons, i1 h.1, Expr.tempVars, List.map_append,
      List.mem_append, or_comm]
    simp
  | _ => intro j; rw [Expr.FactFree.binders h]; rfl

theorem Expr.Scoped.named (h : e.Scoped) (hn : ∀ s ∈ e.tempVars, s.1 < 0) : e.Named := by
  induction e with
  | fact i d c f g i1 i2 =>
    obtain ⟨h1, h2, h3, h4, h5, h6⟩ := h
    refine ⟨i1 h1 fun s hs => hn s (List.mem_append_left _ hs), h2.named, hn (i, d, c) (List.mem_append_right _ (List.mem_singleton.mpr rfl)), ?_,
      fun t ht => h4 t (Expr.free_vars ht)⟩
    intro hi
    obtain ⟨s, hs, rfl⟩ := List.mem_map.mp ((h1.binders i).mp hi)
    exact (h5 s hs).1 rfl
  | _ => exact Expr.FactFree.named h

/-- Names of temporary variables are not free. -/
theorem Expr.Scoped.free (h : e.Scoped) {t s : Int × Nat × Int} (ht : t ∈ e.free) (hs : s ∈ e.tempVars) :
    t.1 ≠ s.1 := by
  induction e with
  | fact i d c f g i1 i2 =>
    obtain ⟨h1, h2, h3, h4, h5, h6⟩ := h
    simp only [Expr.tempVars, List.mem_append, List.mem_singleton] at hs
    rcases List.mem_append.mp ht with ht | ht
    · obtain ⟨ht, hi⟩ := List.mem_filter.mp ht
      rcases hs with hs | rfl
      · exact i1 h1 ht hs
      · exact of_decide_eq_true hi
    · have := vars_inds (Expr.free_vars ht)
      intro heq
      rcases hs with hs | rfl
      · exact (h5 s hs).2 (heq ▸ this)
      · exact h6 (by rw [heq] at this; exact this)
  | _ => rw [Expr.FactFree.tempVars h] at hs; cases hs

/-- Variables of the result of a factorization. -/
structure Factorized (e r : Expr) : Prop where
  vars : ∀ t ∈ r.vars, t ∈ e.vars ∨ t ∈ r.tempVars
  temp : ∀ s ∈ e.tempVars, s ∈ r.tempVars
  new : ∀ s ∈ r.tempVars, s ∈ e.tempVars ∨ s.1 < 0 ∧ s.2.2 = 3

theorem Factorized.refl : Factorized e e := ⟨fun _ h => .inl h, fun _ h => h, fun _ h => .inl h⟩

theorem Factorized.trans {f g : Expr} (h1 : Factorized e f) (h2 : Factorized f g) : Factorized e g where
  vars t ht := (h2.vars t ht).elim (fun h => (h1.vars t h).imp id (h2.temp t)) .inr
  temp s hs := h2.temp s (h1.temp s hs)
  new s hs := (h2.new s hs).elim (h1.new s) .inr

theorem Factorized.factorize {g : Expr} (he : e.Scoped) : Factorized e (Verif.factorize e g) := by
  unfold Verif.factorize
  simp only
  split_ifs with h1 h2
  · exact .refl
  · by_cases hg : g.FactFree
    · have htv := he.tempVars_replace (new := .var (newInd e) g.dim 3) hg trivial
      refine ⟨fun t ht => ?_, fun s hs => factorize_temp.mpr (.inl (by rw [htv]; exact hs)), fun s hs => ?_⟩
      · rcases factorize_vars.mp ht with h | h
        · rcases Expr.vars_replace h with h | h
          · exact .inl h
          · exact .inr (factorize_temp.mpr (.inr (List.mem_singleton.mp h)))
        · exact .inl ((Expr.count_pos (new := g) (by omega)).1 t h)
      · rcases factorize_temp.mp hs with h | rfl
        · rw [htv] at h; exact .inl h
        · exact .inr ⟨newInd_fresh.2, rfl⟩
    · have := he.count_le hg
      omega
  · exact .refl

theorem Factorized.autoFactorize {r : Expr} {n : Nat} (he : e.Scoped) (h : Verif.autoFactorize n e = .ok r) :
    Factorized e r := by
  induction n generalizing e with
  | zero => cases h
  | succ n ih =>
    rw [Verif.autoFactorize] at h
    split_ifs at h with h0
    · rcases recSearch_cases e e with h1 | ⟨g, h1⟩
      · exact absurd h1 h0
      · rw [h1] at h
        exact (Factorized.factorize he).trans (ih he.factorize h)
    · cases h
      exact .refl

theorem Factorized.free {r : Expr} (h : Factorized e r) (hr : r.Scoped) {t : Int × Nat × Int}
    (ht : t ∈ r.free) : t ∈ e.vars :=
  (h.vars t (Expr.free_vars ht)).elim id fun hs => absurd rfl (hr.free ht hs)

/-! ## The variables that are loaded -/

/-- Positions and categories of a list of variables. -/
structure GoodVars (l : List (Int × Nat × Int)) : Prop where
  pos : ∀ v ∈ l, v.2.2 ≠ 3 → 0 ≤ v.1
  cat : ∀ v ∈ l, v.2.2 = 0 ∨ v.2.2 = 1 ∨ v.2.2 = 2 ∨ v.2.2 = 3
  unique : ∀ u ∈ l, ∀ v ∈ l, u.2.2 ≠ 3 → v.2.2 ≠ 3 → u.1 = v.1 → u = v

theorem Expr.mem_inputs {w : VarInfo} : w ∈ e.inputs ↔
    ∃ v ∈ e.vars, (v.2.2 = 0 ∨ v.2.2 = 1 ∨ v.2.2 = 2) ∧ w = ⟨v.1.toNat, v.2.1, v.2.2.toNat⟩ := by
  unfold Expr.inputs
  rw [List.mem_map]
  constructor
  · rintro ⟨v, hv, rfl⟩
    have := List.mem_filter.mp (List.mem_dedup.mp (((List.perm_insertionSort _ _).mem_iff).mp hv))
    exact ⟨v, this.1, of_decide_eq_true this.2, rfl⟩
  · rintro ⟨v, h1, h2, rfl⟩
    exact ⟨v, ((List.perm_insertionSort _ _).mem_iff).mpr
      (List.mem_dedup.mpr (List.mem_filter.mpr ⟨h1, decide_eq_true h2⟩)), rfl⟩

theorem inputs_wf (h : GoodVars e.vars) : WfVars e.inputs where
  nodup := by
    unfold Expr.inputs
    rw [List.map_map]
    have hn : ((e.vars.filter fun v => v.2.2 = 0 ∨ v.2.2 = 1 ∨ v.2.2 = 2).dedup.insertionSort
        fun u v => u.1 ≤ v.1).Nodup := (List.perm_insertionSort _ _).nodup_iff.mpr (List.nodup_dedup _)
    refine List.Nodup.map_on ?_ hn
    intro u hu v hv huv
    have hu := List.mem_filter.mp (List.mem_dedup.mp (((List.perm_insertionSort _ _).mem_iff).mp hu))
    have hv := List.mem_filter.mp (List.mem_dedup.mp (((List.perm_insertionSort _ _).mem_iff).mp hv))
    have h1 := of_decide_eq_true hu.2
    have h2 := of_decide_eq_true hv.2
    have h3 := h.pos u hu.1 (by omega)
    have h4 := h.pos v hv.1 (by omega)
    simp only [Function.comp] at huv
    exact h.unique u hu.1 v hv.1 (by omega) (by omega) (by omega)
  cat v hv := by
    obtain ⟨v, -, h2, rfl⟩ := Expr.mem_inputs.mp hv
    simp only
    omega

theorem foldr_max {l : List Int} {i : Int} (hi : i ∈ l) : i + 1 ≤ l.foldr (fun i m => max (i + 1) m) 0 := by
  induction l with
  | nil => cases hi
  | cons a l ih =>
    rw [List.foldr_cons]
    rcases List.mem_cons.mp hi with rfl | h
    · exact le_max_left _ _
    · exact (ih h).trans (le_max_right _ _)

theorem nminargs_lt {v : Int × Nat × Int} (h : v ∈ e.vars) (h0 : 0 ≤ v.1) : v.1.toNat < e.nminargs := by
  have := foldr_max (vars_inds h)
  unfold Expr.nminargs
  omega

theorem table_entry (h : GoodVars e.vars) {v : Int × Nat × Int} (hv : v ∈ e.vars) (hc : v.2.2 ≠ 3)
    {t : Nat → Option (Nat → ℝ)} : (e.table t)[v.1.toNat]? = some ((t v.1.toNat).map (vec v.2.1)) := by
  have h0 := h.pos v hv hc
  have hlt := nminargs_lt hv h0
  have hc' := h.cat v hv
  have hi : (⟨v.1.toNat, v.2.1, v.2.2.toNat⟩ : VarInfo) ∈ e.inputs :=
    Expr.mem_inputs.mpr ⟨v, hv, by omega, rfl⟩
  have := find_ind (inputs_wf h).nodup hi
  unfold Expr.table
  rw [List.getElem?_map, List.getElem?_range hlt, Option.map_some]
  simp only at this
  rw [this, Option.bind_some]
  rfl

theorem table_congr {t t' : Nat → Option (Nat → ℝ)}
    (h : ∀ v ∈ e.inputs, ∃ m m', t v.ind = some m ∧ t' v.ind = some m' ∧ ∀ k < v.dim, m k = m' k) :
    e.table t = e.table t' := by
  unfold Expr.table
  refine List.map_congr_left fun p _ => ?_
  cases hf : e.inputs.find? fun v => v.ind = p with
  | none => rfl
  | some v =>
    obtain ⟨m, m', h1, h2, h3⟩ := h v (List.mem_of_find?_eq_some hf)
    have hp : v.ind = p := by simpa using List.find?_some hf
    rw [Option.bind_some, Option.bind_some, ← hp, h1, h2, Option.map_some, Option.map_some]
    exact congrArg some (List.map_congr_left fun k hk => h3 k (List.mem_range.mp hk))

section Call

variable {V : Type} {enc : ℝ → V} {dec : V → ℝ} {M : CMath} {junk : Expr → Nat → ℝ} {tagI m n : Nat}
  {args : Nat → Mem V}

theorem call_wf (h : GoodVars e.vars) (ht : tagI < 2) : WfProblem (e.call enc dec M junk tagI m n args) where
  vars := inputs_wf h
  tag := ht
  ev := by
    intro t t' heq
    have : (e.table fun p => (t p).map fun a q => dec (a q)) = e.table fun p => (t' p).map fun a q => dec (a q) :=
      table_congr fun v hv => by
        obtain ⟨a, a', h1, h2, h3⟩ := heq v hv
        exact ⟨fun q => dec (a q), fun q => dec (a' q), by rw [h1]; rfl, by rw [h2]; rfl,
          fun k hk => congrArg dec (h3 k hk)⟩
    funext k
    simp only [Expr.call, this]

theorem call_value (hM : M.Exact) (h : GoodVars e.vars) (hw : e.WF) (hn : e.Named)
    (hfree : ∀ v ∈ e.free, v.2.2 ≠ 3) {i j : Nat} {env : Env} (hd : e.Def env)
    (henv : ∀ v ∈ e.free, ∀ k < v.2.1,
      env v.1 k = dec (args v.1.toNat (Spec.row tagI i j v.2.2.toNat * v.2.1 + k))) {k : Nat} (hk : k < e.dim) :
    (e.call enc dec M junk tagI m n args).ev (Spec.env e.inputs tagI args i j) k = enc (e.val env k) := by
  have hold : (e.table fun p => (Spec.env e.inputs tagI args i j p).map fun a q => dec (a q)).Holds env e := by
    intro v hv
    have hv' := Expr.free_vars hv
    have hc := h.cat v hv'
    have h3 := hfree v hv
    refine ⟨h.pos v hv' h3, ?_⟩
    rw [table_entry h hv' h3]
    have hi : (⟨v.1.toNat, v.2.1, v.2.2.toNat⟩ : VarInfo) ∈ e.inputs :=
      Expr.mem_inputs.mpr ⟨v, hv', by omega, rfl⟩
    have hfi := find_ind (inputs_wf h).nodup hi
    simp only at hfi
    simp only [Spec.env, hfi, Option.map_some]
    exact congrArg (some ∘ some) (vec_congr fun k hk => (henv v hv k hk).symm)
  obtain ⟨q, hq⟩ := codeOk (junk := junk) hM e env _ (newArr junk e) hw hn hd hold (by simp [newArr])
  simp only [Expr.call, hq]
  congr 1
  simp [vec, hk]

end Call

/-- The formula that is evaluated: compiled, and possibly factorized. -/
theorem compiled_good {t : Term} (hp : t.Pos) (hin : t.Inputs) {n : Nat} {e₀ : Expr} (h : t.compile n = .ok e₀)
    (hr : e = e₀ ∨ (∃ g, e = factorize e₀ g) ∨ ∃ n, autoFactorize n e₀ = .ok e) :
    Rep e t.dim (fun env => t.Def env) (fun env => t.val env) ∧ GoodVars e.vars ∧ e.Named ∧
      ∀ v ∈ e.free, v ∈ t.vars := by
  obtain ⟨hf, hv⟩ := compile_vars hp h
  have hrep := compile_rep hp h
  have hsc := hf.scoped
  have key : (∀ env, Stand .defined env e₀ e) ∧ e.Scoped ∧ Factorized e₀ e := by
    rcases hr with rfl | ⟨g, rfl⟩ | ⟨n, h⟩
    · exact ⟨fun _ => .refl, hsc, .refl⟩
    · exact ⟨fun env => Stand.factorize hsc hrep.wf (fun _ _ _ => trivial) (fun _ _ _ => trivial),
        hsc.factorize, .factorize hsc⟩
    · have := fun env => autoFactorize_stand (Δ := .defined) (env := env) hsc hrep.wf (fun _ _ _ => trivial)
        (fun _ _ _ => trivial) h
      exact ⟨fun env => (this env).1, (this fun _ _ => 0).2, .autoFactorize hsc h⟩
  obtain ⟨hs, hs', hfac⟩ := key
  have hnew : ∀ s ∈ e.tempVars, s.1 < 0 ∧ s.2.2 = 3 := fun s hs => (hfac.new s hs).elim
    (fun h => by rw [hf.tempVars] at h; cases h) id
  have hvars : ∀ v ∈ e.vars, v ∈ t.vars ∨ v.1 < 0 ∧ v.2.2 = 3 := fun v h =>
    (hfac.vars v h).imp (hv v) (hnew v)
  refine ⟨⟨(hs fun _ _ => 0).wf hrep.wf, (hs fun _ _ => 0).dim.trans hrep.dim, fun env hd => ?_⟩, ⟨?_, ?_, ?_⟩,
    hs'.named fun s h => (hnew s h).1, fun v h => hv v (hfac.free hs' h)⟩
  · obtain ⟨h1, h2⟩ := hrep.sem env hd
    exact ⟨(e.dom_defined env).mp ((hs env).dom ((e₀.dom_defined env).mpr h1)), (hs env).val.trans h2⟩
  · exact fun v h hc => (hvars v h).elim (hin.pos v) fun h => absurd h.2 hc
  · intro v h
    rcases hvars v h with h | h
    · have := hin.cat v h; omega
    · omega
  · exact fun u hu v hv' hu3 hv3 heq => hin.unique u ((hvars u hu).resolve_right fun h => hu3 h.2) v
      ((hvars v hv').resolve_right fun h => hv3 h.2) heq

end Verif
