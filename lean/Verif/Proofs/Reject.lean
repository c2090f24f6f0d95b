import Verif.Spec.Reject
import Verif.Proofs.AcceptTerm

/-!
# Lemmas for C82
-/

namespace Verif

open Spec

theorem mkUn_accept {o : Un} {f r : Expr} (h : mkUn o f = .ok r) : o.accept f.dim = true := by
  unfold mkUn at h
  split_ifs at h with h1
  exact h1

theorem mkBin_accept {o : Bin} {f g r : Expr} (h : mkBin o f g = .ok r) : o.accept f.dim g.dim = true := by
  unfold mkBin at h
  split_ifs at h with h1
  exact h1

theorem mkTern_accept {o : Tern} {f g k r : Expr} (h : mkTern o f g k = .ok r) : dimsOk [f.dim, g.dim, k.dim] = true := by
  unfold mkTern at h
  split_ifs at h with h1
  exact h1

theorem unTakes_of_accept {o : Un} {d : Nat} (h : o.accept d = true) (hs : ∀ n, o ≠ .sumT n) : UnTakes o d := by
  cases o <;> simp [Un.accept, UnTakes] at * <;> omega

theorem callUn_takes {n : Nat} {o : Un} {f r : Expr} (hf : f.WF) (hs : ∀ n, o ≠ .sumT n) (h : callUn n o f = .ok r) :
    UnTakes o f.dim := by
  cases o <;> first
    | exact trivial
    | exact absurd rfl (hs _)
    | exact unTakes_of_accept (mkUn_accept h) hs

theorem callBin_takes {n : Nat} {o : Bin} {f g r : Expr} (hf : f.WF) (hg : g.WF) (h : callBin n o f g = .ok r) :
    BinTakes o f.dim g.dim := by
  have pf := hf.pos
  have pg := hg.pos
  have pair : dimsOk [f.dim, g.dim] = true → Like f.dim g.dim := (dimsOk_pair pf pg).mp
  cases o with
  | add => exact build_compat (q := .add f g) ⟨hf, hg⟩ h
  | sub => exact build_compat (q := .sub f g) ⟨hf, hg⟩ h
  | mul => exact build_compat (q := .mul f g) ⟨hf, hg⟩ h
  | div => exact build_compat (q := .div f g) ⟨hf, hg⟩ h
  | scalprod => exact build_compat (q := .scalprod f g) ⟨hf, hg⟩ h
  | concat => trivial
  | tensorProd => trivial
  | matVecMult =>
    have := mkBin_accept h
    simp only [Bin.accept, decide_eq_true_eq] at this
    exact Nat.dvd_of_mod_eq_zero this
  | vecMatMult =>
    have := mkBin_accept h
    simp only [Bin.accept, decide_eq_true_eq] at this
    exact Nat.dvd_of_mod_eq_zero this
  | _ => exact pair (mkBin_accept h)

theorem sqNormDiag_like {n : Nat} {s f r : Expr} (hs : s.WF) (hf : f.WF) (h : mkSqNormDiag n s f = .ok r) :
    Like s.dim f.dim := by
  obtain ⟨t, h1, h⟩ := bind_ok h
  obtain ⟨u, h2, h⟩ := bind_ok h
  have ht := square_ok hf h1
  have := build_compat (q := .mul s t) ⟨hs, ht.1⟩ h2
  simp only [Req.Compat, ht.2.1] at this
  exact this

theorem symSqNorm_like {n : Nat} {a x r : Expr} (ha : a.WF) (hx : x.WF) (h : mkSymSqNorm n a x = .ok r) :
    Like a.dim (x.dim * x.dim) := by
  obtain ⟨t, h1, h⟩ := bind_ok h
  obtain ⟨u, h2, h⟩ := bind_ok h
  have ht := mkBin_rep hx hx h1
  have := build_compat (q := .mul a t) ⟨ha, ht.wf⟩ h2
  simp only [Req.Compat, ht.dim, Bin.dim] at this
  exact this

theorem weightedSqNorm_takes {n : Nat} {a x r : Expr} (ha : a.WF) (hx : x.WF) (h : mkWeightedSqNorm n a x = .ok r)
    (h1 : x.dim = 1 → a.dim = 1) : WeightTakes a.dim x.dim := by
  unfold mkWeightedSqNorm at h
  split_ifs at h with h2 h3
  · exact .inl h2
  · exact .inr (.inl h3)
  · rcases symSqNorm_like ha hx h with h' | h' | h'
    · exact .inr (.inr h')
    · exact .inl h'
    · exact .inl (h1 (Nat.eq_one_of_mul_eq_one_left h'))

theorem compile_compatible {n : Nat} {t : Term} (hp : t.Pos) (hw : t.ScalarWeights) {e : Expr} (h : t.compile n = .ok e) :
    t.Compatible := by
  induction t generalizing e with
  | var i d c => trivial
  | zero d => trivial
  | int m => trivial
  | rat p q => trivial
  | intInv m => trivial
  | rdiv m f ih =>
    obtain ⟨f', h1, _⟩ := bind_ok h
    exact ih hp hw h1
  | rpow f m ih =>
    obtain ⟨f', h1, _⟩ := bind_ok h
    exact ih hp hw h1
  | sqNorm2 f ih =>
    obtain ⟨f', h1, _⟩ := bind_ok h
    exact ih hp hw h1
  | norm2 f ih =>
    obtain ⟨f', h1, _⟩ := bind_ok h
    exact ih hp hw h1
  | normalize f ih =>
    obtain ⟨f', h1, _⟩ := bind_ok h
    exact ih hp hw h1
  | un o f ih =>
    obtain ⟨f', h1, h2⟩ := bind_ok h
    have hf := compile_rep hp.1 h1
    have hc := ih hp.1 hw h1
    by_cases hs : ∃ m, o = .sumT m
    · obtain ⟨m, rfl⟩ := hs
      exact ⟨hc, hf.dim ▸ (sumT_ok hf.wf hp.2 h2).1⟩
    · have := callUn_takes hf.wf (fun m hm => hs ⟨m, hm⟩) h2
      rw [hf.dim] at this
      cases o <;> first
        | exact ⟨hc, this⟩
        | exact absurd ⟨_, rfl⟩ hs
  | bin o f g i1 i2 =>
    obtain ⟨f', h1, h⟩ := bind_ok h
    obtain ⟨g', h2, h⟩ := bind_ok h
    have hf := compile_rep hp.1 h1
    have hg := compile_rep hp.2 h2
    have := callBin_takes hf.wf hg.wf h
    rw [hf.dim, hg.dim] at this
    exact ⟨i1 hp.1 hw.1 h1, i2 hp.2 hw.2 h2, this⟩
  | tern o f g k i1 i2 i3 =>
    obtain ⟨f', h1, h⟩ := bind_ok h
    obtain ⟨g', h2, h⟩ := bind_ok h
    obtain ⟨k', h3, h⟩ := bind_ok h
    have hf := compile_rep hp.1 h1
    have hg := compile_rep hp.2.1 h2
    have hk := compile_rep hp.2.2 h3
    have := mkTern_accept h
    rw [dimsOk_triple hf.wf.pos hg.wf.pos hk.wf.pos, hf.dim, hg.dim, hk.dim] at this
    refine ⟨i1 hp.1 hw.1 h1, i2 hp.2.1 hw.2.1 h2, i3 hp.2.2 hw.2.2 h3, ?_, ?_, ?_⟩ <;> unfold Like <;> omega
  | sqDist f g i1 i2 =>
    obtain ⟨f', h1, h⟩ := bind_ok h
    obtain ⟨g', h2, h⟩ := bind_ok h
    obtain ⟨d, h3, h⟩ := bind_ok h
    have hf := compile_rep hp.1 h1
    have hg := compile_rep hp.2 h2
    have := build_compat (q := .sub f' g') ⟨hf.wf, hg.wf⟩ h3
    simp only [Req.Compat, hf.dim, hg.dim] at this
    exact ⟨i1 hp.1 hw.1 h1, i2 hp.2 hw.2 h2, this⟩
  | sqNormIso s f i1 i2 =>
    obtain ⟨f', h1, h⟩ := bind_ok h
    obtain ⟨g', h2, h⟩ := bind_ok h
    exact ⟨i1 hp.1 hw.1 h1, i2 hp.2 hw.2 h2⟩
  | sqNormDiag f g i1 i2 =>
    obtain ⟨f', h1, h⟩ := bind_ok h
    obtain ⟨g', h2, h⟩ := bind_ok h
    have hf := compile_rep hp.1 h1
    have hg := compile_rep hp.2 h2
    have := sqNormDiag_like hf.wf hg.wf h
    rw [hf.dim, hg.dim] at this
    exact ⟨i1 hp.1 hw.1 h1, i2 hp.2 hw.2 h2, this⟩
  | symSqNorm f g i1 i2 =>
    obtain ⟨f', h1, h⟩ := bind_ok h
    obtain ⟨g', h2, h⟩ := bind_ok h
    have hf := compile_rep hp.1 h1
    have hg := compile_rep hp.2 h2
    have := symSqNorm_like hf.wf hg.wf h
    rw [hf.dim, hg.dim] at this
    exact ⟨i1 hp.1 hw.1 h1, i2 hp.2 hw.2 h2, this⟩
  | weightedSqNorm f g i1 i2 =>
    obtain ⟨f', h1, h⟩ := bind_ok h
    obtain ⟨g', h2, h⟩ := bind_ok h
    have hf := compile_rep hp.1 h1
    have hg := compile_rep hp.2 h2
    have := weightedSqNorm_takes hf.wf hg.wf h (by rw [hf.dim, hg.dim]; exact hw.2.2)
    rw [hf.dim, hg.dim] at this
    exact ⟨i1 hp.1 hw.1 h1, i2 hp.2 hw.2.1 h2, this⟩
  | weightedSqDist s f g i0 i1 i2 =>
    obtain ⟨s', h0, h⟩ := bind_ok h
    obtain ⟨f', h1, h⟩ := bind_ok h
    obtain ⟨g', h2, h⟩ := bind_ok h
    obtain ⟨d, h3, h⟩ := bind_ok h
    have hs := compile_rep hp.1 h0
    have hf := compile_rep hp.2.1 h1
    have hg := compile_rep hp.2.2 h2
    have hq : (Req.sub f' g').Pre := ⟨hf.wf, hg.wf⟩
    have hd : d.dim = max f.dim g.dim := by rw [build_dim hq h3, Req.dim, hf.dim, hg.dim]
    have hc := build_compat hq h3
    simp only [Req.Compat, hf.dim, hg.dim] at hc
    have := weightedSqNorm_takes hs.wf (build_wf hq h3) h (by rw [hd, hs.dim]; exact hw.2.2.2)
    rw [hs.dim, hd] at this
    exact ⟨i0 hp.1 hw.1 h0, i1 hp.2.1 hw.2.1 h1, i2 hp.2.2 hw.2.2.1 h2, hc, this⟩

theorem agree_compatible {t : Term} (hs : t.NoSumT1) : t.Compatible ↔ t.Agree := by
  induction t with
  | un o f ih =>
    have := ih hs.1
    have h1 := hs.2
    cases o <;> simp only [Term.Compatible, Term.Agree, UnTakes, this, ne_eq, Un.sumT.injEq] at * <;> simp_all
  | var | zero | int | rat | intInv => exact Iff.rfl
  | rdiv _ _ ih => exact ih hs
  | rpow _ _ ih => exact ih hs
  | sqNorm2 _ ih => exact ih hs
  | norm2 _ ih => exact ih hs
  | normalize _ ih => exact ih hs
  | bin _ _ _ i1 i2 => simp only [Term.Compatible, Term.Agree, i1 hs.1, i2 hs.2]
  | sqDist _ _ i1 i2 => simp only [Term.Compatible, Term.Agree, i1 hs.1, i2 hs.2]
  | sqNormDiag _ _ i1 i2 => simp only [Term.Compatible, Term.Agree, i1 hs.1, i2 hs.2]
  | sqNormIso _ _ i1 i2 => simp only [Term.Compatible, Term.Agree, i1 hs.1, i2 hs.2]
  | symSqNorm _ _ i1 i2 => simp only [Term.Compatible, Term.Agree, i1 hs.1, i2 hs.2]
  | weightedSqNorm _ _ i1 i2 => simp only [Term.Compatible, Term.Agree, i1 hs.1, i2 hs.2]
  | tern _ _ _ _ i1 i2 i3 => simp only [Term.Compatible, Term.Agree, i1 hs.1, i2 hs.2.1, i3 hs.2.2]
  | weightedSqDist _ _ _ i1 i2 i3 => simp only [Term.Compatible, Term.Agree, i1 hs.1, i2 hs.2.1, i3 hs.2.2]

end Verif
