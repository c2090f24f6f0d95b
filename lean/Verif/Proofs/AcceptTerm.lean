import Verif.Proofs.Accept
import Verif.Proofs.Term
import Verif.Spec.Accept

/-! Whole formulas whose dimensions are compatible are accepted. -/

namespace Verif
open Spec

/-- The computation has not ended, or it is fine. -/
def OkF (R : Bool) (x : Except Err Expr) : Prop := x = .error .fuel ∨ Regular R x

theorem OkF.bind {R : Bool} {x : Except Err Expr} {f : Expr → Except Err Expr} (hx : OkF R x)
    (hf : ∀ e, x = .ok e → e.Tidy R → OkF R (f e)) : OkF R (x >>= f) := by
  cases x with
  | ok e =>
    rcases hx with h | h
    · cases h
    · exact hf e rfl h
  | error er => exact hx

theorem okf_build {R : Bool} {n : Nat} {q : Req} (h : q.Ready R) : OkF R (build n q) := build_fine n q h

theorem okf_un {R : Bool} {o : Un} {a : Expr} (h : o.accept a.dim = true) (ho : o ≠ .sumT 1) (ha : a.Tidy R) :
    OkF R (mkUn o a) := .inr (fine_un h ho ha)

theorem pow_fine {R : Bool} {a : Expr} {m : Int} (ha : a.Tidy R) : Regular R (pow a m) := by
  unfold pow
  split_ifs
  · exact ha
  · exact fine_un rfl (by simp) ha

theorem opPow_fine {R : Bool} {a : Expr} {m : Int} (ha : Neat R a) : Regular R (opPow a m) := by
  unfold opPow
  split_ifs
  · exact square_fine ha
  · exact pow_fine ha.2.1

theorem UnTakes.accept {o : Un} {d : Nat} (hd : 0 < d) (h : UnTakes o d) : o.accept d = true := by
  cases o <;> simp_all [UnTakes, Un.accept] <;> omega

theorem BinTakes.accept {o : Bin} {d d' : Nat} (hd : 0 < d) (hd' : 0 < d') (h : BinTakes o d d') (ho : o ≠ .scalprod) :
    o.accept d d' = true := by
  cases o <;> first
    | exact absurd rfl ho
    | rfl
    | exact (dimsOk_pair hd hd').2 h
    | exact decide_eq_true (Nat.mod_eq_zero_of_dvd h)

theorem okf_callUn {R : Bool} {n : Nat} {o : Un} {a : Expr} (ha : Neat R a) (h : UnTakes o a.dim) : OkF R (callUn n o a) := by
  have hs : o ≠ .sumT 1 := by
    rintro rfl
    exact h.2 rfl
  unfold callUn
  split
  · exact .inr (square_fine ha)
  · exact okf_build ha
  · exact .inr (pow_fine ha.2.1)
  · exact okf_build ha
  · exact .inr (sumT_fine ha h.1 h.2)
  · exact okf_un (UnTakes.accept ha.2.2 h) hs ha.2.1

theorem okf_callBin {R : Bool} {n : Nat} {o : Bin} {a b : Expr} (ha : Neat R a) (hb : Neat R b) (h : BinTakes o a.dim b.dim)
    (hz : o = .div → b.asZero = none ∧ (R = false → b.isConst = false)) : OkF R (callBin n o a b) := by
  unfold callBin
  split
  · exact okf_build ⟨ha, hb, h⟩
  · exact okf_build ⟨ha, hb, h⟩
  · exact okf_build ⟨ha, hb, h⟩
  · exact okf_build ⟨ha, hb, h, hz rfl⟩
  · exact okf_build ⟨ha, hb, h⟩
  · rename_i h5
    refine .inr ?_
    rw [mkBin, if_pos (BinTakes.accept ha.2.2 hb.2.2 h h5)]
    exact ⟨ha.2.1, hb.2.1⟩

theorem okf_sqNorm2 {R : Bool} {n : Nat} {a : Expr} (ha : Neat R a) : OkF R (mkSqNorm2 n a) := by
  refine OkF.bind (.inr (opPow_fine ha)) fun e he ht => okf_build ?_
  have := (opPow_rep ha.1 he).wf
  exact ⟨this, ht, this.pos⟩

theorem okf_sqNormIso {R : Bool} {n : Nat} {s a : Expr} (hs : Neat R s) (ha : Neat R a) : OkF R (mkSqNormIso n s a) := by
  refine OkF.bind (okf_sqNorm2 ha) fun e he ht => okf_build ?_
  have h := sqNorm2_rep ha.1 he
  exact ⟨hs, ⟨h.wf, ht, h.wf.pos⟩, .inr (.inr h.dim)⟩

theorem okf_sqNormDiag {R : Bool} {n : Nat} {s a : Expr} (hs : Neat R s) (ha : Neat R a) (hd : Dims s.dim a.dim) :
    OkF R (mkSqNormDiag n s a) := by
  refine OkF.bind (.inr (square_fine ha)) fun e he ht => ?_
  have h := square_rep ha.1 he
  have hg : Neat R e := ⟨h.wf, ht, h.wf.pos⟩
  have hq : Req.Ready R (.mul s e) := ⟨hs, hg, by rw [h.dim]; exact hd⟩
  refine OkF.bind (okf_build hq) fun u hu hu' => okf_build ?_
  have := build_wf hq.pre hu
  exact ⟨this, hu', this.pos⟩

theorem okf_symSqNorm {R : Bool} {n : Nat} {s a : Expr} (hs : Neat R s) (ha : Neat R a) (hd : Dims s.dim (a.dim * a.dim)) :
    OkF R (mkSymSqNorm n s a) := by
  refine OkF.bind (.inr (?_ : Regular R (mkBin .tensorProd a a))) fun e he ht => ?_
  · exact ⟨ha.2.1, ha.2.1⟩
  have h := mkBin_rep ha.1 ha.1 he
  have hg : Neat R e := ⟨h.wf, ht, h.wf.pos⟩
  have hq : Req.Ready R (.mul s e) := ⟨hs, hg, by rw [h.dim]; exact hd⟩
  refine OkF.bind (okf_build hq) fun u hu hu' => okf_build ?_
  have := build_wf hq.pre hu
  exact ⟨this, hu', this.pos⟩

theorem okf_weightedSqNorm {R : Bool} {n : Nat} {s a : Expr} (hs : Neat R s) (ha : Neat R a) (hd : WeightTakes s.dim a.dim) :
    OkF R (mkWeightedSqNorm n s a) := by
  unfold mkWeightedSqNorm
  split_ifs with h1 h2
  · exact okf_sqNormIso hs ha
  · exact okf_sqNormDiag hs ha (.inl h2)
  · refine okf_symSqNorm hs ha (.inl ?_)
    rcases hd with h | h | h
    · exact absurd h h1
    · exact absurd h h2
    · exact h

theorem compile_notConst {n : Nat} {t : Term} (hp : t.Pos) (ht : t.Varies) {e : Expr} (h : t.compile n = .ok e) :
    e.isConst = false := by
  obtain ⟨env, env', h1, h2, h3⟩ := ht
  have hr := compile_rep hp h
  rw [← (hr.sem env h1).2, ← (hr.sem env' h2).2] at h3
  cases e <;> first | rfl | exact absurd rfl h3

theorem dimsOk_three {a b c : Nat} (ha : 0 < a) (hb : 0 < b) (hc : 0 < c) (h1 : Like a b) (h2 : Like a c) (h3 : Like b c) :
    dimsOk [a, b, c] = true := by
  rw [dimsOk_triple ha hb hc]
  unfold Like at *
  omega

theorem compile_okf {R : Bool} {env : Env} {n : Nat} {t : Term} (hp : t.Pos) (ha : t.Agree) (hd : t.Def env)
    (hR : R = false → t.NoFraction) : OkF R (t.compile n) := by
  have good : ∀ {t : Term} {e : Expr}, t.Pos → t.compile n = .ok e → e.Tidy R → Neat R e := fun h1 h2 h3 =>
    ⟨(compile_rep h1 h2).wf, h3, (compile_rep h1 h2).wf.pos⟩
  have nz : ∀ {t : Term} {e : Expr}, t.Pos → t.compile n = .ok e → t.Def env → t.val env 0 ≠ 0 → e.asZero = none := by
    intro t e h1 h2 h3 h4
    cases hz : e.asZero with
    | none => rfl
    | some d =>
      exfalso
      apply h4
      rw [← ((compile_rep h1 h2).sem env h3).2, asZero_some hz]
      rfl
  induction t with
  | var => exact .inr trivial
  | zero => exact .inr trivial
  | int m => exact .inr (tidy_intCst m)
  | rat p q =>
    cases R
    · exact (hR rfl).elim
    · exact .inr (ratCst_fine hd)
  | intInv m =>
    cases R
    · exact (hR rfl).elim
    · exact .inr (ratCst_fine hd)
  | rdiv m f ih =>
    refine OkF.bind (ih hp ha hd.1 fun h => (hR h).1) fun e he ht => ?_
    have g := good (t := f) hp he ht
    split_ifs with hm
    · exact okf_un rfl (by simp) ht
    · refine okf_build ⟨good_int m, g, .inr (.inl (intCst_dim m)), nz (t := f) hp he hd.1 (hd.2 0 ?_), fun h => ?_⟩
      · rw [← (compile_rep (t := f) hp he).dim]
        exact g.2.2
      · exact compile_notConst (t := f) hp ((hR h).2.resolve_left hm) he
  | rpow f m ih =>
    exact OkF.bind (ih hp ha hd.1 hR) fun e he ht => .inr (opPow_fine (good (t := f) hp he ht))
  | un o f ih =>
    refine OkF.bind (ih hp.1 ha.1 hd.1 hR) fun e he ht => okf_callUn (good hp.1 he ht) ?_
    rw [(compile_rep hp.1 he).dim]
    exact ha.2
  | bin o f g ih1 ih2 =>
    refine OkF.bind (ih1 hp.1 ha.1 hd.1 fun h => (hR h).1) fun e he ht => ?_
    refine OkF.bind (ih2 hp.2 ha.2.1 hd.2.1 fun h => (hR h).2.1) fun e' he' ht' => ?_
    have g1 := good hp.1 he ht
    have g2 := good hp.2 he' ht'
    refine okf_callBin g1 g2 ?_ ?_
    · rw [(compile_rep hp.1 he).dim, (compile_rep hp.2 he').dim]
      exact ha.2.2
    · rintro rfl
      refine ⟨nz hp.2 he' hd.2.1 (hd.2.2 0 ?_), fun h => compile_notConst hp.2 ((hR h).2.2 rfl) he'⟩
      rw [← (compile_rep hp.1 he).dim, ← (compile_rep hp.2 he').dim]
      exact lt_max_of_lt_left g1.2.2
  | tern o f g k ih1 ih2 ih3 =>
    refine OkF.bind (ih1 hp.1 ha.1 hd.1 fun h => (hR h).1) fun e he ht => ?_
    refine OkF.bind (ih2 hp.2.1 ha.2.1 hd.2.1 fun h => (hR h).2.1) fun e' he' ht' => ?_
    refine OkF.bind (ih3 hp.2.2 ha.2.2.1 hd.2.2.1 fun h => (hR h).2.2) fun e'' he'' ht'' => ?_
    have g1 := good hp.1 he ht
    have g2 := good hp.2.1 he' ht'
    have g3 := good hp.2.2 he'' ht''
    refine .inr ?_
    obtain ⟨_, _, _, a1, a2, a3⟩ := ha
    rw [mkTern, if_pos]
    · exact ⟨ht, ht', ht''⟩
    · refine dimsOk_three g1.2.2 g2.2.2 g3.2.2 ?_ ?_ ?_ <;>
        simpa only [(compile_rep hp.1 he).dim, (compile_rep hp.2.1 he').dim, (compile_rep hp.2.2 he'').dim]
  | sqNorm2 f ih => exact OkF.bind (ih hp ha hd hR) fun e he ht => okf_sqNorm2 (good (t := f) hp he ht)
  | sqDist f g ih1 ih2 =>
    refine OkF.bind (ih1 hp.1 ha.1 hd.1 fun h => (hR h).1) fun e he ht => ?_
    refine OkF.bind (ih2 hp.2 ha.2.1 hd.2 fun h => (hR h).2) fun e' he' ht' => ?_
    have hq : Req.Ready R (.sub e e') := ⟨good hp.1 he ht, good hp.2 he' ht', by
      rw [(compile_rep hp.1 he).dim, (compile_rep hp.2 he').dim]; exact ha.2.2⟩
    refine OkF.bind (okf_build hq) fun u hu hu' => okf_sqNorm2 ?_
    have := build_wf hq.pre hu
    exact ⟨this, hu', this.pos⟩
  | norm2 f ih =>
    refine OkF.bind (ih hp ha hd hR) fun e he ht => ?_
    have g := good (t := f) hp he ht
    exact OkF.bind (okf_build ⟨g, g, .inl rfl⟩) fun u hu hu' => okf_un rfl (by simp) hu'
  | normalize f ih =>
    refine OkF.bind (ih hp ha hd hR) fun e he ht => ?_
    have g := good (t := f) hp he ht
    refine OkF.bind (okf_sqNorm2 g) fun u hu hu' => ?_
    refine OkF.bind (okf_un rfl (by simp) hu') fun r hr hr' => ?_
    have h1 := sqNorm2_rep g.1 hu
    have h2 := mkUn_rep (o := .rsqrt) h1.wf h1.wf.pos (fun n h => by cases h) hr
    exact okf_build ⟨⟨h2.wf, hr', h2.wf.pos⟩, g, .inr (.inl (h2.dim.trans h1.dim))⟩
  | sqNormIso f g ih1 ih2 =>
    refine OkF.bind (ih1 hp.1 ha.1 hd.1 fun h => (hR h).1) fun e he ht => ?_
    refine OkF.bind (ih2 hp.2 ha.2 hd.2 fun h => (hR h).2) fun e' he' ht' => ?_
    exact okf_sqNormIso (good hp.1 he ht) (good hp.2 he' ht')
  | sqNormDiag f g ih1 ih2 =>
    refine OkF.bind (ih1 hp.1 ha.1 hd.1 fun h => (hR h).1) fun e he ht => ?_
    refine OkF.bind (ih2 hp.2 ha.2.1 hd.2 fun h => (hR h).2) fun e' he' ht' => ?_
    refine okf_sqNormDiag (good hp.1 he ht) (good hp.2 he' ht') ?_
    rw [(compile_rep hp.1 he).dim, (compile_rep hp.2 he').dim]
    exact ha.2.2
  | symSqNorm f g ih1 ih2 =>
    refine OkF.bind (ih1 hp.1 ha.1 hd.1 fun h => (hR h).1) fun e he ht => ?_
    refine OkF.bind (ih2 hp.2 ha.2.1 hd.2 fun h => (hR h).2) fun e' he' ht' => ?_
    refine okf_symSqNorm (good hp.1 he ht) (good hp.2 he' ht') ?_
    rw [(compile_rep hp.1 he).dim, (compile_rep hp.2 he').dim]
    exact ha.2.2
  | weightedSqNorm f g ih1 ih2 =>
    refine OkF.bind (ih1 hp.1 ha.1 hd.1 fun h => (hR h).1) fun e he ht => ?_
    refine OkF.bind (ih2 hp.2 ha.2.1 hd.2 fun h => (hR h).2) fun e' he' ht' => ?_
    refine okf_weightedSqNorm (good hp.1 he ht) (good hp.2 he' ht') ?_
    rw [(compile_rep hp.1 he).dim, (compile_rep hp.2 he').dim]
    exact ha.2.2
  | weightedSqDist s f g ih0 ih1 ih2 =>
    refine OkF.bind (ih0 hp.1 ha.1 hd.1 fun h => (hR h).1) fun e0 he0 ht0 => ?_
    refine OkF.bind (ih1 hp.2.1 ha.2.1 hd.2.1 fun h => (hR h).2.1) fun e he ht => ?_
    refine OkF.bind (ih2 hp.2.2 ha.2.2.1 hd.2.2 fun h => (hR h).2.2) fun e' he' ht' => ?_
    have hq : Req.Ready R (.sub e e') := ⟨good hp.2.1 he ht, good hp.2.2 he' ht', by
      rw [(compile_rep hp.2.1 he).dim, (compile_rep hp.2.2 he').dim]; exact ha.2.2.2.1⟩
    refine OkF.bind (okf_build hq) fun u hu hu' => ?_
    have hw := build_wf hq.pre hu
    have hdim := build_dim hq.pre hu
    refine okf_weightedSqNorm (good hp.1 he0 ht0) ⟨hw, hu', hw.pos⟩ ?_
    rw [hdim, (compile_rep hp.1 he0).dim]
    change WeightTakes s.dim (max e.dim e'.dim)
    rw [(compile_rep hp.2.1 he).dim, (compile_rep hp.2.2 he').dim]
    exact ha.2.2.2.2

/-- The outcome of a formula with compatible dimensions. -/
theorem compile_outcome {R : Bool} {env : Env} {t : Term} (hp : t.Pos) (ha : t.Agree) (hd : t.Def env)
    (hR : R = false → t.NoFraction) : ∃ n x, t.compile n = x ∧ x ≠ .error .fuel ∧ Regular R x := by
  obtain ⟨N, x, hx, h⟩ := compile_stable hp
  have h : ∀ n, N ≤ n → t.compile n = x := h
  refine ⟨N, x, h N (le_refl _), hx, ?_⟩
  rcases compile_okf (n := N) hp ha hd hR with h' | h' <;> rw [h N (le_refl _)] at h'
  · exact absurd h' hx
  · exact h'

/-- More depth of recursion does not change the outcome. -/
def MonoF (f : Nat → Except Err Expr) : Prop := ∀ n m, n ≤ m → f n ≠ .error .fuel → f m = f n

theorem MonoF.const {x : Except Err Expr} : MonoF fun _ => x := fun _ _ _ _ => rfl

theorem MonoF.build {q : Req} : MonoF fun n => build n q := fun _ _ h h' => build_mono h h'

theorem MonoF.bind {f : Nat → Except Err Expr} {g : Nat → Expr → Except Err Expr} (hf : MonoF f) (hg : ∀ e, MonoF fun n => g n e) :
    MonoF fun n => f n >>= g n := by
  intro n m h h'
  dsimp only at h' ⊢
  cases hx : f n with
  | ok e =>
    rw [hx] at h'
    rw [hf n m h (by rw [hx]; simp), hx]
    exact hg e n m h h'
  | error er =>
    rw [hx] at h'
    rw [hf n m h (by rw [hx]; exact h'), hx]
    rfl

theorem MonoF.sqNorm2 {a : Expr} : MonoF fun n => mkSqNorm2 n a := .bind .const fun _ => .build

theorem MonoF.sqNormIso {s a : Expr} : MonoF fun n => mkSqNormIso n s a := .bind .sqNorm2 fun _ => .build

theorem MonoF.sqNormDiag {s a : Expr} : MonoF fun n => mkSqNormDiag n s a := .bind .const fun _ => .bind .build fun _ => .build

theorem MonoF.symSqNorm {s a : Expr} : MonoF fun n => mkSymSqNorm n s a := .bind .const fun _ => .bind .build fun _ => .build

theorem MonoF.weightedSqNorm {s a : Expr} : MonoF fun n => mkWeightedSqNorm n s a := by
  unfold mkWeightedSqNorm
  split_ifs
  · exact .sqNormIso
  · exact .sqNormDiag
  · exact .symSqNorm

theorem MonoF.callUn {o : Un} {a : Expr} : MonoF fun n => callUn n o a := by
  cases o <;> first | exact .build | exact .const

theorem MonoF.callBin {o : Bin} {a b : Expr} : MonoF fun n => callBin n o a b := by
  cases o <;> first | exact .build | exact .const

theorem compile_mono (t : Term) : MonoF fun n => t.compile n := by
  induction t with
  | var => exact .const
  | zero => exact .const
  | int => exact .const
  | rat => exact .const
  | intInv => exact .const
  | rdiv m f ih =>
    refine ih.bind fun e => ?_
    by_cases h : m = 1
    · simp only [h, if_true]
      exact .const
    · simp only [h, if_false]
      exact .build
  | rpow f m ih => exact ih.bind fun e => .const
  | un o f ih => exact ih.bind fun e => .callUn
  | bin o f g ih1 ih2 => exact ih1.bind fun e => ih2.bind fun e' => .callBin
  | tern o f g k ih1 ih2 ih3 => exact ih1.bind fun e => ih2.bind fun e' => ih3.bind fun e'' => .const
  | sqNorm2 f ih => exact ih.bind fun e => .sqNorm2
  | sqDist f g ih1 ih2 => exact ih1.bind fun e => ih2.bind fun e' => .bind .build fun _ => .sqNorm2
  | norm2 f ih => exact ih.bind fun e => .bind .build fun _ => .const
  | normalize f ih => exact ih.bind fun e => .bind .sqNorm2 fun _ => .bind .const fun _ => .build
  | sqNormIso f g ih1 ih2 => exact ih1.bind fun e => ih2.bind fun e' => .sqNormIso
  | sqNormDiag f g ih1 ih2 => exact ih1.bind fun e => ih2.bind fun e' => .sqNormDiag
  | symSqNorm f g ih1 ih2 => exact ih1.bind fun e => ih2.bind fun e' => .symSqNorm
  | weightedSqNorm f g ih1 ih2 => exact ih1.bind fun e => ih2.bind fun e' => .weightedSqNorm
  | weightedSqDist s f g ih0 ih1 ih2 =>
    exact ih0.bind fun e => ih1.bind fun e => ih2.bind fun e' => .bind .build fun _ => .weightedSqNorm

end Verif
