import Verif.Spec.Term
import Verif.Proofs.Simplify

/-!
# Compilation of the formulas written by the user
-/

namespace Verif

open Spec Finset

/-- `e` represents the value `V`, of dimension `d`, on the domain `D`. -/
structure Rep (e : Expr) (d : Nat) (D : Env → Prop) (V : Env → Vec) : Prop where
  wf : e.WF
  dim : e.dim = d
  sem : ∀ env, D env → e.Def env ∧ e.val env = V env

theorem Post.rep {q : Req} {r : Expr} (h : Post .defined q r) :
    Rep r q.dim (fun env => q.Def env) (fun env => q.val env) :=
  ⟨h.wf, h.dim, fun env he => by
    obtain ⟨h1, h2⟩ := h.sem env ((q.dom_defined env).mpr he)
    exact ⟨(r.dom_defined env).mp h1, funext h2⟩⟩

theorem bind_ok {x : Except Err Expr} {f : Expr → Except Err Expr} {r : Expr}
    (h : (x >>= f) = .ok r) : ∃ e, x = .ok e ∧ f e = .ok r := by
  cases x with
  | ok e => exact ⟨e, rfl, h⟩
  | error er => cases h

theorem mkUn_rep {o : Un} {f r : Expr} (hf : f.WF) (hd : 0 < o.dim f.dim) (ho : ∀ n, o ≠ .sumT n)
    (h : mkUn o f = .ok r) :
    Rep r (o.dim f.dim) (fun env => f.Def env ∧ unDef o f.dim (f.val env))
      (fun env => unVal o f.dim (f.val env)) := by
  obtain ⟨rfl, hok⟩ := mkUn_ok h
  exact ⟨⟨hf, hok, hd, fun n hn => absurd hn (ho n)⟩, rfl, fun env he => ⟨he, rfl⟩⟩

theorem Bin.dim_pos {o : Bin} {d d' : Nat} (h1 : 0 < d) (h2 : 0 < d') (h : o.accept d d' = true) :
    0 < o.dim d d' := by
  cases o <;> simp only [Bin.dim] <;> try omega
  · simp only [Bin.accept, decide_eq_true_eq] at h
    exact Nat.div_pos (Nat.le_of_dvd h1 (Nat.dvd_of_mod_eq_zero h)) h2
  · simp only [Bin.accept, decide_eq_true_eq] at h
    exact Nat.div_pos (Nat.le_of_dvd h2 (Nat.dvd_of_mod_eq_zero h)) h1
  · exact Nat.mul_pos h1 h2

theorem mkBin_rep {o : Bin} {f g r : Expr} (hf : f.WF) (hg : g.WF) (h : mkBin o f g = .ok r) :
    Rep r (o.dim f.dim g.dim)
      (fun env => f.Def env ∧ g.Def env ∧ binDef o f.dim g.dim (f.val env) (g.val env))
      (fun env => binVal o f.dim g.dim (f.val env) (g.val env)) := by
  obtain ⟨rfl, hok⟩ := mkBin_ok h
  exact ⟨⟨hf, hg, hok, Bin.dim_pos hf.pos hg.pos hok⟩, rfl, fun env he => ⟨he, rfl⟩⟩

theorem mkTern_rep {o : Tern} {f g h r : Expr} (hf : f.WF) (hg : g.WF) (hh : h.WF)
    (hr : mkTern o f g h = .ok r) :
    Rep r (max (max f.dim g.dim) h.dim)
      (fun env => f.Def env ∧ g.Def env ∧ h.Def env ∧
        ternDef o (max (max f.dim g.dim) h.dim) (f.val env) (g.val env) (h.val env))
      (fun env => ternVal o (f.val env) (g.val env) (h.val env)) := by
  unfold mkTern at hr
  split at hr
  · rename_i hok
    cases hr
    exact ⟨⟨hf, hg, hh, hok⟩, rfl, fun env he => ⟨he, rfl⟩⟩
  · cases hr

theorem square_rep {f r : Expr} (hf : f.WF) (h : square f = .ok r) :
    Rep r f.dim (fun env => f.Def env) (fun env k => f.val env k ^ 2) := by
  obtain ⟨h1, h2, h3, h4⟩ := square_ok hf h
  exact ⟨h1, h2, fun env he => by
    obtain ⟨e1, e2⟩ := h4 .defined env ((f.dom_defined env).mpr he)
    exact ⟨(r.dom_defined env).mp e1, funext fun k => by rw [e2, pow_two]⟩⟩

theorem pow_rep {f r : Expr} {m : Int} (hf : f.WF) (h : pow f m = .ok r) :
    Rep r f.dim (fun env => f.Def env ∧ ∀ k < f.dim, m < 0 → f.val env k ≠ 0)
      (fun env k => f.val env k ^ m) := by
  unfold pow at h
  split_ifs at h with hm
  · cases h
    subst hm
    exact ⟨hf, rfl, fun env he => ⟨he.1, funext fun k => (zpow_one _).symm⟩⟩
  · exact mkUn_rep (o := .pow m) hf hf.pos (fun n h => by cases h) h

theorem opPow_rep {f r : Expr} {m : Int} (hf : f.WF) (h : opPow f m = .ok r) :
    Rep r f.dim (fun env => f.Def env ∧ ∀ k < f.dim, m < 0 → f.val env k ≠ 0)
      (fun env k => f.val env k ^ m) := by
  unfold opPow at h
  split_ifs at h with hm
  · subst hm
    have := square_rep hf h
    exact ⟨this.wf, this.dim, fun env he => this.sem env he.1⟩
  · exact pow_rep hf h

theorem callUn_rep {n : Nat} {o : Un} {f r : Expr} (hf : f.WF) (hd : 0 < o.dim f.dim)
    (h : callUn n o f = .ok r) :
    Rep r (o.dim f.dim) (fun env => f.Def env ∧ unDef o f.dim (f.val env))
      (fun env => unVal o f.dim (f.val env)) := by
  unfold callUn at h
  split at h
  · have := square_rep hf h
    exact ⟨this.wf, this.dim, fun env he => this.sem env he.1⟩
  · have := (build_post (q := .minus f) hf h).rep
    exact ⟨this.wf, this.dim, fun env he => this.sem env he.1⟩
  · exact pow_rep hf h
  · have := (build_post (q := .sum f) hf h).rep
    exact ⟨this.wf, this.dim, fun env he => this.sem env he.1⟩
  · obtain ⟨h0, h1, h2, h3, h4⟩ := sumT_ok hf hd h
    exact ⟨h1, h2, fun env he => by
      obtain ⟨e1, e2⟩ := h4 .defined env ((f.dom_defined env).mpr he.1)
      exact ⟨(r.dom_defined env).mp e1, funext fun k => by
        rw [e2]; exact Expr.val_const hf h0 env k 0⟩⟩
  · rename_i hn
    exact mkUn_rep hf hd (fun d hd => hn d hd) h

theorem callBin_rep {n : Nat} {o : Bin} {f g r : Expr} (hf : f.WF) (hg : g.WF)
    (h : callBin n o f g = .ok r) :
    Rep r (o.dim f.dim g.dim)
      (fun env => f.Def env ∧ g.Def env ∧ binDef o f.dim g.dim (f.val env) (g.val env))
      (fun env => binVal o f.dim g.dim (f.val env) (g.val env)) := by
  unfold callBin at h
  split at h
  · have := (build_post (q := .add f g) ⟨hf, hg⟩ h).rep
    exact ⟨this.wf, this.dim, fun env he => this.sem env ⟨he.1, he.2.1⟩⟩
  · have := (build_post (q := .sub f g) ⟨hf, hg⟩ h).rep
    exact ⟨this.wf, this.dim, fun env he => this.sem env ⟨he.1, he.2.1⟩⟩
  · have := (build_post (q := .mul f g) ⟨hf, hg⟩ h).rep
    exact ⟨this.wf, this.dim, fun env he => this.sem env ⟨he.1, he.2.1⟩⟩
  · exact (build_post (q := .div f g) ⟨hf, hg⟩ h).rep
  · have := (build_post (q := .scalprod f g) ⟨hf, hg⟩ h).rep
    exact ⟨this.wf, this.dim, fun env he => this.sem env ⟨he.1, he.2.1⟩⟩
  · exact mkBin_rep hf hg h

theorem sqNorm2_rep {n : Nat} {f r : Expr} (hf : f.WF) (h : mkSqNorm2 n f = .ok r) :
    Rep r 1 (fun env => f.Def env) (fun env _ => sqn f.dim (f.val env)) := by
  obtain ⟨s, h1, h2⟩ := bind_ok h
  have hs := square_rep hf (show square f = .ok s from h1)
  have hr := (build_post (q := .sum s) hs.wf h2).rep
  refine ⟨hr.wf, hr.dim, fun env he => ?_⟩
  obtain ⟨s1, s2⟩ := hs.sem env he
  obtain ⟨r1, r2⟩ := hr.sem env s1
  exact ⟨r1, by rw [r2]; simp only [Req.val, s2, hs.dim]; rfl⟩

theorem sqNormIso_rep {n : Nat} {s f r : Expr} (hs : s.WF) (hf : f.WF)
    (h : mkSqNormIso n s f = .ok r) :
    Rep r s.dim (fun env => s.Def env ∧ f.Def env)
      (fun env k => s.val env k * sqn f.dim (f.val env)) := by
  obtain ⟨t, h1, h2⟩ := bind_ok h
  have ht := sqNorm2_rep hf h1
  have hr := (build_post (q := .mul s t) ⟨hs, ht.wf⟩ h2).rep
  refine ⟨hr.wf, hr.dim.trans ?_, fun env he => ?_⟩
  · have h1 := ht.dim
    have h2 := hs.pos
    show max s.dim t.dim = s.dim
    omega
  · obtain ⟨t1, t2⟩ := ht.sem env he.2
    obtain ⟨r1, r2⟩ := hr.sem env ⟨he.1, t1⟩
    exact ⟨r1, by rw [r2]; simp only [Req.val, t2]⟩

theorem sqNormDiag_rep {n : Nat} {s f r : Expr} (hs : s.WF) (hf : f.WF)
    (h : mkSqNormDiag n s f = .ok r) :
    Rep r 1 (fun env => s.Def env ∧ f.Def env)
      (fun env _ => ∑ k ∈ range (max s.dim f.dim), s.val env k * f.val env k ^ 2) := by
  obtain ⟨t, h1, h2⟩ := bind_ok h
  obtain ⟨u, h3, h4⟩ := bind_ok h2
  have ht := square_rep hf h1
  have hu := (build_post (q := .mul s t) ⟨hs, ht.wf⟩ h3).rep
  have hr := (build_post (q := .sum u) hu.wf h4).rep
  refine ⟨hr.wf, hr.dim, fun env he => ?_⟩
  obtain ⟨t1, t2⟩ := ht.sem env he.2
  obtain ⟨u1, u2⟩ := hu.sem env ⟨he.1, t1⟩
  obtain ⟨r1, r2⟩ := hr.sem env u1
  exact ⟨r1, by rw [r2]; simp only [Req.val, u2, t2, hu.dim, Req.dim, ht.dim]⟩

theorem symSqNorm_rep {n : Nat} {a x r : Expr} (ha : a.WF) (hx : x.WF)
    (h : mkSymSqNorm n a x = .ok r) :
    Rep r 1 (fun env => a.Def env ∧ x.Def env)
      (fun env _ => ∑ q ∈ range (max a.dim (x.dim * x.dim)),
        a.val env q * (x.val env (q / x.dim) * x.val env (q % x.dim))) := by
  obtain ⟨t, h1, h2⟩ := bind_ok h
  obtain ⟨u, h3, h4⟩ := bind_ok h2
  have ht := mkBin_rep hx hx h1
  have hu := (build_post (q := .mul a t) ⟨ha, ht.wf⟩ h3).rep
  have hr := (build_post (q := .sum u) hu.wf h4).rep
  refine ⟨hr.wf, hr.dim, fun env he => ?_⟩
  obtain ⟨t1, t2⟩ := ht.sem env ⟨he.2, he.2, trivial⟩
  obtain ⟨u1, u2⟩ := hu.sem env ⟨he.1, t1⟩
  obtain ⟨r1, r2⟩ := hr.sem env u1
  refine ⟨r1, ?_⟩
  rw [r2]
  simp only [Req.val, u2, t2, hu.dim, Req.dim, ht.dim, Bin.dim, binVal]
  refine funext fun _ => sum_congr rfl fun q _ => ?_
  congr 1
  unfold cst
  split_ifs with hd
  · have hx1 : x.dim = 1 := Nat.eq_one_of_mul_eq_one_left hd
    rw [Expr.val_const hx hx1 env (q / x.dim) 0, Expr.val_const hx hx1 env (q % x.dim) 0]
    simp
  · rfl

theorem weightedSqNorm_rep {n : Nat} {a x r : Expr} (ha : a.WF) (hx : x.WF)
    (h : mkWeightedSqNorm n a x = .ok r) :
    Rep r 1 (fun env => a.Def env ∧ x.Def env)
      (fun env _ => wsq a.dim x.dim (a.val env) (x.val env)) := by
  unfold mkWeightedSqNorm at h
  unfold wsq
  split_ifs at h with h1 h2
  · have := sqNormIso_rep ha hx h
    refine ⟨this.wf, this.dim.trans h1, fun env he => ⟨(this.sem env he).1, ?_⟩⟩
    rw [(this.sem env he).2]
    funext k
    rw [if_pos h1, Expr.val_const ha h1 env k 0]
  · have := sqNormDiag_rep ha hx h
    refine ⟨this.wf, this.dim, fun env he => ⟨(this.sem env he).1, ?_⟩⟩
    rw [(this.sem env he).2, if_neg h1, if_pos h2, h2, max_self]
  · have := symSqNorm_rep ha hx h
    refine ⟨this.wf, this.dim, fun env he => ⟨(this.sem env he).1, ?_⟩⟩
    rw [(this.sem env he).2, if_neg h1, if_neg h2]

theorem Un.dim_pos {o : Un} {d : Nat} (hd : 0 < d) (h : 0 < o.dim 1) : 0 < o.dim d := by
  cases o <;> first | exact hd | exact h

theorem ratCst_rep {p q : Int} {r : Expr} (h : ratCst p q = .ok r) :
    Rep r 1 (fun _ => q ≠ 0) (fun _ _ => p / q) := by
  obtain ⟨h1, h2, h3, h4, h5⟩ := ratCst_ok h
  exact ⟨h1, h2, fun env _ => ⟨(r.dom_defined env).mp (h4 _ env), funext (h5 env)⟩⟩

/-- The compiled formula represents the value of the term. -/
theorem compile_rep {n : Nat} {t : Term} (hp : t.Pos) {e : Expr} (h : t.compile n = .ok e) :
    Rep e t.dim (fun env => t.Def env) (fun env => t.val env) := by
  induction t generalizing e with
  | var i d c => cases h; exact ⟨hp, rfl, fun env _ => ⟨trivial, rfl⟩⟩
  | zero d => cases h; exact ⟨hp, rfl, fun env _ => ⟨trivial, rfl⟩⟩
  | int m =>
    cases h
    exact ⟨intCst_wf m, intCst_dim m, fun env _ => ⟨(Expr.dom_defined _ env).mp (intCst_def m env), funext (intCst_val m env)⟩⟩
  | rat p q => exact ratCst_rep h
  | intInv m =>
    have := ratCst_rep h
    exact ⟨this.wf, this.dim, fun env he => by simpa [Term.val] using this.sem env he⟩
  | rdiv m f ih =>
    obtain ⟨f', h1, h2⟩ := bind_ok h
    have hf := ih hp h1
    have hfp := hf.wf.pos
    split_ifs at h2 with hm
    · have := mkUn_rep (o := .inv) hf.wf hf.wf.pos (fun n h => by cases h) h2
      refine ⟨this.wf, this.dim.trans hf.dim, fun env he => ?_⟩
      obtain ⟨g1, g2⟩ := hf.sem env he.1
      have := this.sem env ⟨g1, by rw [g2, hf.dim]; exact he.2⟩
      refine ⟨this.1, ?_⟩
      rw [this.2, g2, hm]
      funext k
      simp [unVal, Term.val]
    · have := (build_post (q := .div (intCst m) f') ⟨intCst_wf m, hf.wf⟩ h2).rep
      have hd : max (intCst m).dim f'.dim = f'.dim := by
        rw [intCst_dim]; exact Nat.max_eq_right hfp
      refine ⟨this.wf, (this.dim.trans hd).trans hf.dim, fun env he => ?_⟩
      obtain ⟨g1, g2⟩ := hf.sem env he.1
      have := this.sem env ⟨(Expr.dom_defined _ env).mp (intCst_def m env), g1, by rw [hd, g2, hf.dim]; exact he.2⟩
      refine ⟨this.1, ?_⟩
      rw [this.2]
      funext k
      simp only [Req.val, intCst_val, g2, Term.val]
  | rpow f m ih =>
    obtain ⟨f', h1, h2⟩ := bind_ok h
    have hf := ih hp h1
    have := opPow_rep hf.wf h2
    refine ⟨this.wf, this.dim.trans hf.dim, fun env he => ?_⟩
    obtain ⟨g1, g2⟩ := hf.sem env he.1
    have := this.sem env ⟨g1, by rw [g2, hf.dim]; exact he.2⟩
    exact ⟨this.1, by rw [this.2]; simp only [g2]; rfl⟩
  | un o f ih =>
    obtain ⟨f', h1, h2⟩ := bind_ok h
    have hf := ih hp.1 h1
    have := callUn_rep hf.wf (Un.dim_pos hf.wf.pos hp.2) h2
    rw [hf.dim] at this
    refine ⟨this.wf, this.dim, fun env he => ?_⟩
    obtain ⟨g1, g2⟩ := hf.sem env he.1
    have := this.sem env ⟨g1, by rw [g2]; exact he.2⟩
    exact ⟨this.1, by rw [this.2, g2]; rfl⟩
  | bin o f g i1 i2 =>
    obtain ⟨f', h1, h⟩ := bind_ok h
    obtain ⟨g', h2, h⟩ := bind_ok h
    have hf := i1 hp.1 h1
    have hg := i2 hp.2 h2
    have := callBin_rep hf.wf hg.wf h
    rw [hf.dim, hg.dim] at this
    refine ⟨this.wf, this.dim, fun env he => ?_⟩
    obtain ⟨f1, f2⟩ := hf.sem env he.1
    obtain ⟨g1, g2⟩ := hg.sem env he.2.1
    have := this.sem env ⟨f1, g1, by rw [f2, g2]; exact he.2.2⟩
    exact ⟨this.1, by rw [this.2, f2, g2]; rfl⟩
  | tern o f g h' i1 i2 i3 =>
    obtain ⟨f', h1, h⟩ := bind_ok h
    obtain ⟨g', h2, h⟩ := bind_ok h
    obtain ⟨h'', h3, h⟩ := bind_ok h
    have hf := i1 hp.1 h1
    have hg := i2 hp.2.1 h2
    have hh := i3 hp.2.2 h3
    have := mkTern_rep hf.wf hg.wf hh.wf h
    rw [hf.dim, hg.dim, hh.dim] at this
    refine ⟨this.wf, this.dim, fun env he => ?_⟩
    obtain ⟨f1, f2⟩ := hf.sem env he.1
    obtain ⟨g1, g2⟩ := hg.sem env he.2.1
    obtain ⟨k1, k2⟩ := hh.sem env he.2.2.1
    have := this.sem env ⟨f1, g1, k1, by rw [f2, g2, k2]; exact he.2.2.2⟩
    exact ⟨this.1, by rw [this.2, f2, g2, k2]; rfl⟩
  | sqNorm2 f ih =>
    obtain ⟨f', h1, h2⟩ := bind_ok h
    have hf := ih hp h1
    have := sqNorm2_rep hf.wf h2
    rw [hf.dim] at this
    refine ⟨this.wf, this.dim, fun env he => ?_⟩
    obtain ⟨f1, f2⟩ := hf.sem env he
    have := this.sem env f1
    exact ⟨this.1, by rw [this.2, f2]; rfl⟩
  | sqDist f g i1 i2 =>
    obtain ⟨f', h1, h⟩ := bind_ok h
    obtain ⟨g', h2, h⟩ := bind_ok h
    obtain ⟨d, h3, h⟩ := bind_ok h
    have hf := i1 hp.1 h1
    have hg := i2 hp.2 h2
    have hd := (build_post (q := .sub f' g') ⟨hf.wf, hg.wf⟩ h3).rep
    have := sqNorm2_rep hd.wf h
    rw [hd.dim, Req.dim, hf.dim, hg.dim] at this
    refine ⟨this.wf, this.dim, fun env he => ?_⟩
    obtain ⟨f1, f2⟩ := hf.sem env he.1
    obtain ⟨g1, g2⟩ := hg.sem env he.2
    obtain ⟨d1, d2⟩ := hd.sem env ⟨f1, g1⟩
    have := this.sem env d1
    exact ⟨this.1, by rw [this.2, d2]; simp only [Req.val, f2, g2]; rfl⟩
  | norm2 f ih =>
    obtain ⟨f', h1, h⟩ := bind_ok h
    obtain ⟨s, h2, h⟩ := bind_ok h
    have hf := ih hp h1
    have hs := (build_post (q := .scalprod f' f') ⟨hf.wf, hf.wf⟩ h2).rep
    have := mkUn_rep (o := .sqrt) hs.wf hs.wf.pos (fun n h => by cases h) h
    refine ⟨this.wf, this.dim.trans hs.dim, fun env he => ?_⟩
    obtain ⟨f1, f2⟩ := hf.sem env he
    obtain ⟨s1, s2⟩ := hs.sem env ⟨f1, f1⟩
    have hv : s.val env = fun _ => sqn f.dim (f.val env) := by
      rw [s2]; simp only [Req.val, f2, hf.dim, max_self, sqn, pow_two]
    have hnn : 0 ≤ sqn f.dim (f.val env) := sum_nonneg fun i _ => sq_nonneg _
    have := this.sem env ⟨s1, fun k _ => by rw [hv]; exact hnn⟩
    exact ⟨this.1, by rw [this.2, hv]; rfl⟩
  | normalize f ih =>
    obtain ⟨f', h1, h⟩ := bind_ok h
    obtain ⟨s, h2, h⟩ := bind_ok h
    obtain ⟨r, h3, h⟩ := bind_ok h
    have hf := ih hp h1
    have hfp := hf.wf.pos
    have hs := sqNorm2_rep hf.wf h2
    have hr := mkUn_rep (o := .rsqrt) hs.wf hs.wf.pos (fun n h => by cases h) h3
    have := (build_post (q := .mul r f') ⟨hr.wf, hf.wf⟩ h).rep
    have hd : max r.dim f'.dim = f'.dim := by
      have h1 : r.dim = s.dim := hr.dim
      have h2 := hs.dim
      omega
    refine ⟨this.wf, (this.dim.trans hd).trans hf.dim, fun env he => ?_⟩
    obtain ⟨f1, f2⟩ := hf.sem env he
    obtain ⟨s1, s2⟩ := hs.sem env f1
    have hnn : 0 ≤ sqn f'.dim (f'.val env) := sum_nonneg fun i _ => sq_nonneg _
    obtain ⟨r1, r2⟩ := hr.sem env ⟨s1, fun k _ => by rw [s2]; exact hnn⟩
    have := this.sem env ⟨r1, f1⟩
    refine ⟨this.1, ?_⟩
    rw [this.2]
    funext k
    simp only [Req.val, r2, unVal, s2, f2, hf.dim, Term.val]
    split_ifs
    · simp
    · rw [one_div, div_eq_inv_mul]
  | sqNormIso s f i1 i2 =>
    obtain ⟨s', h1, h⟩ := bind_ok h
    obtain ⟨f', h2, h⟩ := bind_ok h
    have hs := i1 hp.1 h1
    have hf := i2 hp.2 h2
    have := sqNormIso_rep hs.wf hf.wf h
    rw [hs.dim, hf.dim] at this
    refine ⟨this.wf, this.dim, fun env he => ?_⟩
    obtain ⟨s1, s2⟩ := hs.sem env he.1
    obtain ⟨f1, f2⟩ := hf.sem env he.2
    have := this.sem env ⟨s1, f1⟩
    exact ⟨this.1, by rw [this.2, s2, f2]; rfl⟩
  | sqNormDiag s f i1 i2 =>
    obtain ⟨s', h1, h⟩ := bind_ok h
    obtain ⟨f', h2, h⟩ := bind_ok h
    have hs := i1 hp.1 h1
    have hf := i2 hp.2 h2
    have := sqNormDiag_rep hs.wf hf.wf h
    rw [hs.dim, hf.dim] at this
    refine ⟨this.wf, this.dim, fun env he => ?_⟩
    obtain ⟨s1, s2⟩ := hs.sem env he.1
    obtain ⟨f1, f2⟩ := hf.sem env he.2
    have := this.sem env ⟨s1, f1⟩
    exact ⟨this.1, by rw [this.2, s2, f2]; rfl⟩
  | symSqNorm s f i1 i2 =>
    obtain ⟨s', h1, h⟩ := bind_ok h
    obtain ⟨f', h2, h⟩ := bind_ok h
    have hs := i1 hp.1 h1
    have hf := i2 hp.2 h2
    have := symSqNorm_rep hs.wf hf.wf h
    rw [hs.dim, hf.dim] at this
    refine ⟨this.wf, this.dim, fun env he => ?_⟩
    obtain ⟨s1, s2⟩ := hs.sem env he.1
    obtain ⟨f1, f2⟩ := hf.sem env he.2
    have := this.sem env ⟨s1, f1⟩
    exact ⟨this.1, by rw [this.2, s2, f2]; rfl⟩
  | weightedSqNorm s f i1 i2 =>
    obtain ⟨s', h1, h⟩ := bind_ok h
    obtain ⟨f', h2, h⟩ := bind_ok h
    have hs := i1 hp.1 h1
    have hf := i2 hp.2 h2
    have := weightedSqNorm_rep hs.wf hf.wf h
    rw [hs.dim, hf.dim] at this
    refine ⟨this.wf, this.dim, fun env he => ?_⟩
    obtain ⟨s1, s2⟩ := hs.sem env he.1
    obtain ⟨f1, f2⟩ := hf.sem env he.2
    have := this.sem env ⟨s1, f1⟩
    exact ⟨this.1, by rw [this.2, s2, f2]; rfl⟩
  | weightedSqDist s f g i0 i1 i2 =>
    obtain ⟨s', h0, h⟩ := bind_ok h
    obtain ⟨f', h1, h⟩ := bind_ok h
    obtain ⟨g', h2, h⟩ := bind_ok h
    obtain ⟨d, h3, h⟩ := bind_ok h
    have hs := i0 hp.1 h0
    have hf := i1 hp.2.1 h1
    have hg := i2 hp.2.2 h2
    have hd := (build_post (q := .sub f' g') ⟨hf.wf, hg.wf⟩ h3).rep
    have := weightedSqNorm_rep hs.wf hd.wf h
    rw [hd.dim, Req.dim, hf.dim, hg.dim, hs.dim] at this
    refine ⟨this.wf, this.dim, fun env he => ?_⟩
    obtain ⟨s1, s2⟩ := hs.sem env he.1
    obtain ⟨f1, f2⟩ := hf.sem env he.2.1
    obtain ⟨g1, g2⟩ := hg.sem env he.2.2
    obtain ⟨d1, d2⟩ := hd.sem env ⟨f1, g1⟩
    have := this.sem env ⟨s1, d1⟩
    exact ⟨this.1, by rw [this.2, d2, s2]; simp only [Req.val, f2, g2]; rfl⟩

/-! ## Termination -/

/-- From some depth on, the computation comes to an end, always with the same outcome. -/
def Stable (f : Nat → Except Err Expr) : Prop :=
  ∃ N x, x ≠ .error .fuel ∧ ∀ n, N ≤ n → f n = x

theorem Stable.const {x : Except Err Expr} (h : x ≠ .error .fuel) : Stable fun _ => x :=
  ⟨0, x, h, fun _ _ => rfl⟩

theorem Stable.bind {f : Nat → Except Err Expr} {g : Nat → Expr → Except Err Expr} (hf : Stable f)
    (hg : ∀ e, (∃ n, f n = .ok e) → Stable fun n => g n e) : Stable fun n => f n >>= g n := by
  obtain ⟨N, x, hx, hN⟩ := hf
  cases x with
  | error er =>
    refine ⟨N, .error er, hx, fun n hn => ?_⟩
    simp only [hN n hn]; rfl
  | ok e =>
    obtain ⟨M, y, hy, hM⟩ := hg e ⟨N, hN N (le_refl _)⟩
    refine ⟨max N M, y, hy, fun n hn => ?_⟩
    simp only [hN n (by omega)]
    exact hM n (by omega)

theorem Stable.build {q : Req} (hq : q.Pre) : Stable fun n => build n q :=
  ⟨q.meas + 1, _, build_terminates hq (Nat.lt_succ_self _), fun _ hn =>
    build_mono hn (build_terminates hq (Nat.lt_succ_self _))⟩

theorem Stable.mkUn {o f} : Stable fun _ => mkUn o f := Stable.const fun h => mkUn_err h rfl

theorem Stable.mkBin {o f g} : Stable fun _ => mkBin o f g := Stable.const fun h => mkBin_err h rfl

theorem Stable.square {f} : Stable fun _ => square f := Stable.const fun h => square_err h rfl

theorem Stable.pow {f m} : Stable fun _ => pow f m := Stable.const fun h => by
  unfold Verif.pow at h
  split_ifs at h
  exact mkUn_err h rfl

theorem Stable.opPow {f m} : Stable fun _ => opPow f m := by
  unfold Verif.opPow
  split_ifs
  · exact Stable.square
  · exact Stable.pow

theorem Stable.callUn {o : Un} {f : Expr} (hf : f.WF) : Stable fun n => callUn n o f := by
  unfold Verif.callUn
  split
  · exact Stable.square
  · exact Stable.build hf
  · exact Stable.pow
  · exact Stable.build hf
  · exact Stable.const fun h => sumT_err h rfl
  · exact Stable.mkUn

theorem Stable.callBin {o : Bin} {f g : Expr} (hf : f.WF) (hg : g.WF) :
    Stable fun n => callBin n o f g := by
  unfold Verif.callBin
  split
  iterate 5 exact Stable.build ⟨hf, hg⟩
  exact Stable.mkBin

theorem Stable.sqNorm2 {f : Expr} (hf : f.WF) : Stable fun n => mkSqNorm2 n f :=
  Stable.opPow.bind fun _ ⟨_, he⟩ => Stable.build (opPow_rep hf he).wf

theorem Stable.sqNormIso {s f : Expr} (hs : s.WF) (hf : f.WF) : Stable fun n => mkSqNormIso n s f :=
  (Stable.sqNorm2 hf).bind fun _ ⟨_, he⟩ => Stable.build ⟨hs, (sqNorm2_rep hf he).wf⟩

theorem Stable.sqNormDiag {s f : Expr} (hs : s.WF) (hf : f.WF) :
    Stable fun n => mkSqNormDiag n s f :=
  Stable.square.bind fun _ ⟨_, he⟩ =>
    (Stable.build (q := .mul _ _) ⟨hs, (square_rep hf he).wf⟩).bind fun _ ⟨_, hu⟩ =>
      Stable.build (q := .sum _)
        (build_wf (q := .mul _ _) ⟨hs, (square_rep hf he).wf⟩ hu)

theorem Stable.symSqNorm {s f : Expr} (hs : s.WF) (hf : f.WF) :
    Stable fun n => mkSymSqNorm n s f :=
  Stable.mkBin.bind fun _ ⟨_, he⟩ =>
    (Stable.build (q := .mul _ _) ⟨hs, (mkBin_rep hf hf he).wf⟩).bind fun _ ⟨_, hu⟩ =>
      Stable.build (q := .sum _)
        (build_wf (q := .mul _ _) ⟨hs, (mkBin_rep hf hf he).wf⟩ hu)

theorem Stable.weightedSqNorm {s f : Expr} (hs : s.WF) (hf : f.WF) :
    Stable fun n => mkWeightedSqNorm n s f := by
  unfold mkWeightedSqNorm
  split_ifs
  · exact Stable.sqNormIso hs hf
  · exact Stable.sqNormDiag hs hf
  · exact Stable.symSqNorm hs hf

theorem compile_stable {t : Term} (hp : t.Pos) : Stable fun n => t.compile n := by
  induction t with
  | var | zero | int => exact Stable.const (by simp)
  | rat p q => exact Stable.const fun h => ratCst_err h rfl
  | intInv m => exact Stable.const fun h => ratCst_err h rfl
  | rdiv m f ih =>
    refine (ih hp).bind fun f' ⟨_, h1⟩ => ?_
    split_ifs
    · exact Stable.mkUn
    · exact Stable.build ⟨intCst_wf m, (compile_rep (t := f) hp h1).wf⟩
  | rpow f m ih => exact (ih hp).bind fun f' _ => Stable.opPow
  | un o f ih => exact (ih hp.1).bind fun f' ⟨_, h1⟩ => Stable.callUn (compile_rep hp.1 h1).wf
  | bin o f g i1 i2 =>
    exact (i1 hp.1).bind fun f' ⟨_, h1⟩ => (i2 hp.2).bind fun g' ⟨_, h2⟩ =>
      Stable.callBin (compile_rep hp.1 h1).wf (compile_rep hp.2 h2).wf
  | tern o f g h i1 i2 i3 =>
    refine (i1 hp.1).bind fun f' _ => (i2 hp.2.1).bind fun g' _ => (i3 hp.2.2).bind fun h' _ => ?_
    refine Stable.const fun h => ?_
    unfold mkTern at h
    split at h <;> cases h
  | sqNorm2 f ih => exact (ih hp).bind fun f' ⟨_, h1⟩ => Stable.sqNorm2 (compile_rep (t := f) hp h1).wf
  | sqDist f g i1 i2 =>
    exact (i1 hp.1).bind fun f' ⟨_, h1⟩ => (i2 hp.2).bind fun g' ⟨_, h2⟩ =>
      (Stable.build (q := .sub _ _) ⟨(compile_rep hp.1 h1).wf, (compile_rep hp.2 h2).wf⟩).bind
        fun d ⟨_, h3⟩ => Stable.sqNorm2
          (build_wf (q := .sub _ _) ⟨(compile_rep hp.1 h1).wf, (compile_rep hp.2 h2).wf⟩ h3)
  | norm2 f ih =>
    exact (ih hp).bind fun f' ⟨_, h1⟩ =>
      (Stable.build (q := .scalprod _ _) ⟨(compile_rep (t := f) hp h1).wf, (compile_rep (t := f) hp h1).wf⟩).bind
        fun _ _ => Stable.mkUn
  | normalize f ih =>
    exact (ih hp).bind fun f' ⟨_, h1⟩ => (Stable.sqNorm2 (compile_rep (t := f) hp h1).wf).bind
      fun s ⟨_, h2⟩ => Stable.mkUn.bind fun r ⟨_, h3⟩ =>
        have hs := sqNorm2_rep (compile_rep (t := f) hp h1).wf h2
        Stable.build ⟨(mkUn_rep (o := .rsqrt) hs.wf hs.wf.pos (fun n h => by cases h) h3).wf, (compile_rep (t := f) hp h1).wf⟩
  | sqNormIso s f i1 i2 =>
    exact (i1 hp.1).bind fun f' ⟨_, h1⟩ => (i2 hp.2).bind fun g' ⟨_, h2⟩ =>
      Stable.sqNormIso (compile_rep hp.1 h1).wf (compile_rep hp.2 h2).wf
  | sqNormDiag s f i1 i2 =>
    exact (i1 hp.1).bind fun f' ⟨_, h1⟩ => (i2 hp.2).bind fun g' ⟨_, h2⟩ =>
      Stable.sqNormDiag (compile_rep hp.1 h1).wf (compile_rep hp.2 h2).wf
  | symSqNorm s f i1 i2 =>
    exact (i1 hp.1).bind fun f' ⟨_, h1⟩ => (i2 hp.2).bind fun g' ⟨_, h2⟩ =>
      Stable.symSqNorm (compile_rep hp.1 h1).wf (compile_rep hp.2 h2).wf
  | weightedSqNorm s f i1 i2 =>
    exact (i1 hp.1).bind fun f' ⟨_, h1⟩ => (i2 hp.2).bind fun g' ⟨_, h2⟩ =>
      Stable.weightedSqNorm (compile_rep hp.1 h1).wf (compile_rep hp.2 h2).wf
  | weightedSqDist s f g i0 i1 i2 =>
    exact (i0 hp.1).bind fun s' ⟨_, h0⟩ => (i1 hp.2.1).bind fun f' ⟨_, h1⟩ =>
      (i2 hp.2.2).bind fun g' ⟨_, h2⟩ =>
      (Stable.build (q := .sub _ _) ⟨(compile_rep hp.2.1 h1).wf, (compile_rep hp.2.2 h2).wf⟩).bind
        fun d ⟨_, h3⟩ => Stable.weightedSqNorm (compile_rep hp.1 h0).wf
          (build_wf (q := .sub _ _) ⟨(compile_rep hp.2.1 h1).wf, (compile_rep hp.2.2 h2).wf⟩ h3)

end Verif
