import Verif.Proofs.Linear
import Verif.Proofs.DiffTerm

/-!
# Gradients are of degree 1 in `gradin`
-/

namespace Verif

open Spec

section

variable {w : Mark} {n : Nat} {v : VarId}

theorem pow_deg {f r : Expr} {m : Int} (h : pow f m = .ok r) : r.deg w ≤ 2 * f.deg w := by
  unfold pow at h
  split_ifs at h
  · cases h; omega
  · rw [(mkUn_deg (w := w) h).1]; simp [Expr.deg, Un.linear]

theorem opPow_deg {f r : Expr} {m : Int} (h : opPow f m = .ok r) : r.deg w ≤ 2 * f.deg w := by
  unfold opPow at h
  split_ifs at h
  · exact (square_deg h).1
  · exact pow_deg h

/-- Everything about degrees. -/
macro "deg_omega" : tactic => `(tactic| (
  simp only [Req.deg, Expr.deg, Un.linear, intCst_deg, if_true, Bool.false_eq_true, if_false] at * <;>
  omega))

theorem derivUn_deg {o : Un} {f r : Expr} (hf : f.deg w = 0) (h : derivUn n o f = .ok r) :
    r.deg w = 0 := by
  cases o <;> first
    | (cases h; done)
    | (have := (mkUn_deg (w := w) h).1; deg_omega)
    | (have := (build_le (w := w) h).1; deg_omega)
    | skip
  case pow =>
    obtain ⟨p, h1, h⟩ := bind_ok h
    have := pow_deg (w := w) h1
    have := (build_le (w := w) h).1
    deg_omega
  case inv =>
    obtain ⟨p, h1, h⟩ := bind_ok h
    have := opPow_deg (w := w) h1
    have := (build_le (w := w) h).1
    deg_omega
  case acos =>
    obtain ⟨a, h1, h⟩ := bind_ok h
    obtain ⟨b, h2, h⟩ := bind_ok h
    obtain ⟨c, h3, h⟩ := bind_ok h
    have := opPow_deg (w := w) h1
    have := (build_le (w := w) h2).1
    have := (mkUn_deg (w := w) h3).1
    have := (build_le (w := w) h).1
    deg_omega
  case asin =>
    obtain ⟨a, h1, h⟩ := bind_ok h
    obtain ⟨b, h2, h⟩ := bind_ok h
    have := opPow_deg (w := w) h1
    have := (build_le (w := w) h2).1
    have := (mkUn_deg (w := w) h).1
    deg_omega
  case atan =>
    obtain ⟨a, h1, h⟩ := bind_ok h
    obtain ⟨b, h2, h⟩ := bind_ok h
    have := opPow_deg (w := w) h1
    have := (build_le (w := w) h2).1
    have := (mkUn_deg (w := w) h).1
    deg_omega
  case sinXDivX =>
    obtain ⟨a, h1, h⟩ := bind_ok h
    obtain ⟨b, h2, h⟩ := bind_ok h
    obtain ⟨c, h3, h⟩ := bind_ok h
    obtain ⟨d, h4, h⟩ := bind_ok h
    obtain ⟨e, h5, h⟩ := bind_ok h
    have := (mkUn_deg (w := w) h1).1
    have := (build_le (w := w) h2).1
    have := (mkUn_deg (w := w) h3).1
    have := opPow_deg (w := w) h4
    have := (build_le (w := w) h5).1
    have := (build_le (w := w) h).1
    deg_omega

theorem derivPowf_deg {f g : Expr} {d : Expr × Expr} (hf : f.deg w = 0) (hg : g.deg w = 0)
    (h : derivPowf n f g = .ok d) : d.1.deg w = 0 ∧ d.2.deg w = 0 := by
  obtain ⟨b1, h1, h⟩ := bind_ok' h
  obtain ⟨b2, h2, h⟩ := bind_ok' h
  obtain ⟨b3, h3, h⟩ := bind_ok' h
  obtain ⟨b4, h4, h⟩ := bind_ok' h
  obtain ⟨b5, h5, h⟩ := bind_ok' h
  obtain ⟨b6, h6, h⟩ := bind_ok' h
  cases h
  have := (build_le (w := w) h1).1
  have := (mkBin_deg (w := w) h2).1
  have := (build_le (w := w) h3).1
  have := (mkUn_deg (w := w) h4).1
  have := (mkBin_deg (w := w) h5).1
  have := (build_le (w := w) h6).1
  deg_omega

theorem derivAtan2_deg {f g : Expr} {d : Expr × Expr} (hf : f.deg w = 0) (hg : g.deg w = 0)
    (h : derivAtan2 n f g = .ok d) : d.1.deg w = 0 ∧ d.2.deg w = 0 := by
  obtain ⟨b1, h1, h⟩ := bind_ok' h
  obtain ⟨b2, h2, h⟩ := bind_ok' h
  obtain ⟨b3, h3, h⟩ := bind_ok' h
  obtain ⟨b4, h4, h⟩ := bind_ok' h
  obtain ⟨b5, h5, h⟩ := bind_ok' h
  obtain ⟨b6, h6, h⟩ := bind_ok' h
  cases h
  have := opPow_deg (w := w) h1
  have := opPow_deg (w := w) h2
  have := (build_le (w := w) h3).1
  have := (build_le (w := w) h4).1
  have := (build_le (w := w) h5).1
  have := (build_le (w := w) h6).1
  deg_omega

theorem clampAlt_deg {f g k r : Expr} (hf : f.deg w = 0) (hg : g.deg w = 0) (hk : k.deg w = 0)
    (h : clampAlt n f g k = .ok r) : r.deg w = 0 := by
  obtain ⟨b1, h1, h⟩ := bind_ok h
  obtain ⟨b2, h2, h⟩ := bind_ok h
  obtain ⟨b3, h3, h⟩ := bind_ok h
  obtain ⟨b4, h4, h⟩ := bind_ok h
  obtain ⟨b5, h5, h⟩ := bind_ok h
  obtain ⟨b6, h6, h⟩ := bind_ok h
  have := (build_le (w := w) h1).1
  have := (build_le (w := w) h2).1
  have := (build_le (w := w) h3).1
  have := (mkUn_deg (w := w) h4).1
  have := (build_le (w := w) h5).1
  have := (build_le (w := w) h6).1
  have := (build_le (w := w) h).1
  deg_omega

theorem modAlt_deg {f g k r : Expr} (hf : f.deg w = 0) (hg : g.deg w = 0) (hk : k.deg w = 0)
    (h : modAlt n f g k = .ok r) : r.deg w = 0 := by
  obtain ⟨b1, h1, h⟩ := bind_ok h
  obtain ⟨b2, h2, h⟩ := bind_ok h
  obtain ⟨b3, h3, h⟩ := bind_ok h
  obtain ⟨b4, h4, h⟩ := bind_ok h
  have := (build_le (w := w) h1).1
  have := (build_le (w := w) h2).1
  have := (mkUn_deg (w := w) h3).1
  have := (build_le (w := w) h4).1
  have := (build_le (w := w) h).1
  deg_omega

theorem clampAlt_free {f g k r : Expr} (hw : f.WF ∧ g.WF ∧ k.WF)
    (hf : f.FactFree ∧ g.FactFree ∧ k.FactFree) (h : clampAlt n f g k = .ok r) :
    r.WF ∧ r.FactFree := by
  have a : ∀ {e : Expr}, e.WF → e.FactFree → At .factFree (fun _ _ => 0) e e.dim (e.val fun _ _ => 0) :=
    fun h1 h2 => At.self h1 ((Expr.dom_factFree _ _).mpr h2)
  have := clampAlt_at (a hw.1 hf.1) (a hw.2.1 hf.2.1) (a hw.2.2 hf.2.2) rfl (fun _ _ _ _ => trivial)
    trivial h
  exact ⟨this.wf, (r.dom_factFree _).mp this.dom⟩

theorem modAlt_free {f g k r : Expr} (hw : f.WF ∧ g.WF ∧ k.WF)
    (hf : f.FactFree ∧ g.FactFree ∧ k.FactFree) (h : modAlt n f g k = .ok r) :
    r.WF ∧ r.FactFree := by
  have a : ∀ {e : Expr}, e.WF → e.FactFree → At .factFree (fun _ _ => 0) e e.dim (e.val fun _ _ => 0) :=
    fun h1 h2 => At.self h1 ((Expr.dom_factFree _ _).mpr h2)
  have := modAlt_at (a hw.1 hf.1) (a hw.2.1 hf.2.1) (a hw.2.2 hf.2.2) rfl (fun _ => trivial)
    trivial h
  exact ⟨this.wf, (r.dom_factFree _).mp this.dom⟩

/-- Degree of the recursive calls. -/
def DegD (w : Mark) (D : Expr → Expr → Except Err Expr) (f : Expr) : Prop :=
  ∀ {g r : Expr}, D f g = .ok r → r.deg w ≤ g.deg w

theorem chainTerm_deg {D : Expr → Except Err Expr} (hD : ∀ {g r}, D g = .ok r → r.deg w ≤ g.deg w)
    {gradin df r : Expr} (hd : df.deg w = 0) (h : chainTerm n D gradin df = .ok r) :
    r.deg w ≤ gradin.deg w := by
  unfold chainTerm at h
  split_ifs at h
  · obtain ⟨t, h1, h⟩ := bind_ok h
    have := hD h1
    have := (build_le (w := w) h).1
    deg_omega
  · obtain ⟨t, h1, h⟩ := bind_ok h
    have := hD h
    have := (build_le (w := w) h1).1
    deg_omega

theorem diffUn_deg {D : Expr → Expr → Except Err Expr} {o : Un} {f gradin r : Expr} (hf : f.deg w = 0)
    (hD : DegD w D f) (h : diffUn n D v o f gradin = .ok r) : r.deg w ≤ gradin.deg w := by
  have chain : (do let df ← derivUn n o f; chainUn n (D f) gradin df) = .ok r →
      r.deg w ≤ gradin.deg w := by
    intro h
    obtain ⟨df, h1, h⟩ := bind_ok h
    obtain ⟨t, h2, h⟩ := bind_ok h
    have := chainTerm_deg (w := w) hD (derivUn_deg hf h1) h2
    have := (build_le (w := w) h).1
    deg_omega
  have hz : ∀ d, (Expr.zero d).deg w = 0 := fun _ => rfl
  cases o <;> first
    | exact chain h
    | (cases h; exact Nat.zero_le _)
    | skip
  case minus =>
    obtain ⟨t, h1, h⟩ := bind_ok h
    have := hD h1
    have := (build_le (w := w) h).1
    deg_omega
  case sum =>
    obtain ⟨t, h1, h⟩ := bind_ok h
    exact (hD h).trans (sumT_deg h1).1
  case sumT =>
    obtain ⟨t, h1, h⟩ := bind_ok h
    exact (hD h).trans (build_le h1).1
  case elem =>
    obtain ⟨t, h1, h⟩ := bind_ok h
    exact (hD h).trans (mkUn_deg h1).1.le
  case elemT =>
    obtain ⟨t, h1, h⟩ := bind_ok h
    exact (hD h).trans (mkUn_deg h1).1.le
  case extract =>
    obtain ⟨t, h1, h⟩ := bind_ok h
    exact (hD h).trans (mkUn_deg h1).1.le
  case extractT =>
    obtain ⟨t, h1, h⟩ := bind_ok h
    exact (hD h).trans (mkUn_deg h1).1.le
  case max =>
    obtain ⟨a, h1, h⟩ := bind_ok h
    obtain ⟨b, h2, h⟩ := bind_ok h
    obtain ⟨c, h3, h⟩ := bind_ok h
    have := (mkUn_deg (w := w) h1).1
    have := (mkUn_deg (w := w) h2).1
    have := (build_le (w := w) h3).1
    have := hD h
    deg_omega
  case min =>
    obtain ⟨a, h1, h⟩ := bind_ok h
    obtain ⟨b, h2, h⟩ := bind_ok h
    obtain ⟨c, h3, h⟩ := bind_ok h
    have := (mkUn_deg (w := w) h1).1
    have := (mkUn_deg (w := w) h2).1
    have := (build_le (w := w) h3).1
    have := hD h
    deg_omega

theorem addGrad_deg {f g gradin r : Expr} (h : addGrad n f g gradin = .ok r) :
    r.deg w ≤ gradin.deg w := by
  unfold addGrad at h
  split_ifs at h
  · exact (build_le h).1
  · cases h; exact le_refl _

theorem mulGrad_deg {f g gradin r : Expr} (hg : g.deg w = 0) (h : mulGrad n f g gradin = .ok r) :
    r.deg w ≤ gradin.deg w := by
  unfold mulGrad at h
  split_ifs at h <;>
  · have := (build_le (w := w) h).1
    deg_omega

theorem diffBin_deg {D : Expr → Expr → Except Err Expr} {o : Bin} {f g gradin r : Expr}
    (hf : f.deg w = 0) (hg : g.deg w = 0) (hDf : DegD w D f) (hDg : DegD w D g)
    (hDu : ∀ u, g = .un .exp u → DegD w D u)
    (h : diffBin n D v o f g gradin = .ok r) : r.deg w ≤ gradin.deg w := by
  cases o <;> first
    | (cases h; exact Nat.zero_le _)
    | skip
  case add =>
    obtain ⟨a1, h1, h⟩ := bind_ok h
    obtain ⟨a2, h2, h⟩ := bind_ok h
    obtain ⟨a3, h3, h⟩ := bind_ok h
    obtain ⟨a4, h4, h⟩ := bind_ok h
    have := addGrad_deg (w := w) h1
    have := addGrad_deg (w := w) h3
    have := hDf h2
    have := hDg h4
    have := (build_le (w := w) h).1
    deg_omega
  case sub =>
    obtain ⟨a1, h1, h⟩ := bind_ok h
    obtain ⟨a2, h2, h⟩ := bind_ok h
    obtain ⟨a3, h3, h⟩ := bind_ok h
    obtain ⟨a4, h4, h⟩ := bind_ok h
    have := addGrad_deg (w := w) h1
    have := addGrad_deg (w := w) h3
    have := hDf h2
    have := hDg h4
    have := (build_le (w := w) h).1
    deg_omega
  case mul =>
    unfold diffBin at h
    simp only at h
    split at h
    · rename_i u hu _
      have hu := asUn_some hu
      obtain ⟨a1, h1, h⟩ := bind_ok h
      obtain ⟨a2, h2, h⟩ := bind_ok h
      obtain ⟨a3, h3, h⟩ := bind_ok h
      obtain ⟨a4, h4, h⟩ := bind_ok h
      have := hDf h1
      have := (build_le (w := w) h2).1
      have := hDu u hu h3
      have := (build_le (w := w) h4).1
      have := (build_le (w := w) h).1
      deg_omega
    · obtain ⟨a1, h1, h⟩ := bind_ok h
      obtain ⟨a2, h2, h⟩ := bind_ok h
      obtain ⟨a3, h3, h⟩ := bind_ok h
      obtain ⟨a4, h4, h⟩ := bind_ok h
      have := mulGrad_deg (w := w) hg h1
      have := mulGrad_deg (w := w) hf h3
      have := hDf h2
      have := hDg h4
      have := (build_le (w := w) h).1
      deg_omega
  case div =>
    unfold diffBin at h
    simp only at h
    split_ifs at h
    · obtain ⟨a1, h1, h⟩ := bind_ok h
      obtain ⟨a2, h2, h⟩ := bind_ok h
      obtain ⟨a3, h3, h⟩ := bind_ok h
      obtain ⟨a4, h4, h⟩ := bind_ok h
      obtain ⟨a5, h5, h⟩ := bind_ok h
      obtain ⟨a6, h6, h⟩ := bind_ok h
      obtain ⟨a7, h7, h⟩ := bind_ok h
      have := (build_le (w := w) h1).1
      have := (build_le (w := w) h2).1
      have := hDf h3
      have := (build_le (w := w) h4).1
      have := (square_deg (w := w) h5).1
      have := (build_le (w := w) h6).1
      have := hDg h7
      have := (build_le (w := w) h).1
      deg_omega
    · obtain ⟨a1, h1, h⟩ := bind_ok h
      obtain ⟨a2, h2, h⟩ := bind_ok h
      obtain ⟨a3, h3, h⟩ := bind_ok h
      obtain ⟨a4, h4, h⟩ := bind_ok h
      obtain ⟨a5, h5, h⟩ := bind_ok h
      obtain ⟨a6, h6, h⟩ := bind_ok h
      have := (build_le (w := w) h1).1
      have := hDf h2
      have := (build_le (w := w) h3).1
      have := hDg h4
      have := (build_le (w := w) h5).1
      have := (square_deg (w := w) h6).1
      have := (build_le (w := w) h).1
      deg_omega
    · obtain ⟨a1, h1, h⟩ := bind_ok h
      obtain ⟨a2, h2, h⟩ := bind_ok h
      obtain ⟨a3, h3, h⟩ := bind_ok h
      obtain ⟨a4, h4, h⟩ := bind_ok h
      obtain ⟨a5, h5, h⟩ := bind_ok h
      obtain ⟨a6, h6, h⟩ := bind_ok h
      have := (build_le (w := w) h1).1
      have := hDf h2
      have := (build_le (w := w) h3).1
      have := (square_deg (w := w) h4).1
      have := (build_le (w := w) h5).1
      have := hDg h6
      have := (build_le (w := w) h).1
      deg_omega
  case powf =>
    obtain ⟨d, h1, h⟩ := bind_ok' h
    obtain ⟨c1, c2⟩ := derivPowf_deg hf hg h1
    obtain ⟨a1, h1, h⟩ := bind_ok h
    obtain ⟨a2, h2, h⟩ := bind_ok h
    obtain ⟨a3, h3, h⟩ := bind_ok h
    have := chainTerm_deg (w := w) hDf c1 h1
    have := chainTerm_deg (w := w) hDg c2 h3
    have := (build_le (w := w) h2).1
    have := (build_le (w := w) h).1
    deg_omega
  case atan2 =>
    obtain ⟨d, h1, h⟩ := bind_ok' h
    obtain ⟨c1, c2⟩ := derivAtan2_deg hf hg h1
    obtain ⟨a1, h1, h⟩ := bind_ok h
    obtain ⟨a2, h2, h⟩ := bind_ok h
    obtain ⟨a3, h3, h⟩ := bind_ok h
    have := chainTerm_deg (w := w) hDf c1 h1
    have := chainTerm_deg (w := w) hDg c2 h3
    have := (build_le (w := w) h2).1
    have := (build_le (w := w) h).1
    deg_omega
  case scalprod =>
    obtain ⟨a1, h1, h⟩ := bind_ok h
    obtain ⟨a2, h2, h⟩ := bind_ok h
    obtain ⟨a3, h3, h⟩ := bind_ok h
    have := hDf h1
    have := hDg h2
    have := (build_le (w := w) h3).1
    have := (build_le (w := w) h).1
    deg_omega
  case concat =>
    obtain ⟨a1, h1, h⟩ := bind_ok h
    obtain ⟨a2, h2, h⟩ := bind_ok h
    obtain ⟨a3, h3, h⟩ := bind_ok h
    obtain ⟨a4, h4, h⟩ := bind_ok h
    have := (mkUn_deg (w := w) h1).1
    have := hDf h2
    have := (mkUn_deg (w := w) h3).1
    have := hDg h4
    have := (build_le (w := w) h).1
    deg_omega
  case matVecMult =>
    obtain ⟨a1, h1, h⟩ := bind_ok h
    obtain ⟨a2, h2, h⟩ := bind_ok h
    obtain ⟨a3, h3, h⟩ := bind_ok h
    obtain ⟨a4, h4, h⟩ := bind_ok h
    have := (mkBin_deg (w := w) h1).1
    have := hDf h2
    have := (mkBin_deg (w := w) h3).1
    have := hDg h4
    have := (build_le (w := w) h).1
    deg_omega
  case vecMatMult =>
    obtain ⟨a1, h1, h⟩ := bind_ok h
    obtain ⟨a2, h2, h⟩ := bind_ok h
    obtain ⟨a3, h3, h⟩ := bind_ok h
    obtain ⟨a4, h4, h⟩ := bind_ok h
    have := (mkBin_deg (w := w) h1).1
    have := hDg h2
    have := (mkBin_deg (w := w) h3).1
    have := hDf h4
    have := (build_le (w := w) h).1
    deg_omega
  case tensorProd =>
    obtain ⟨a1, h1, h⟩ := bind_ok h
    obtain ⟨a2, h2, h⟩ := bind_ok h
    obtain ⟨a3, h3, h⟩ := bind_ok h
    obtain ⟨a4, h4, h⟩ := bind_ok h
    have := (mkBin_deg (w := w) h1).1
    have := hDf h2
    have := (mkBin_deg (w := w) h3).1
    have := hDg h4
    have := (build_le (w := w) h).1
    deg_omega

/-- A gradient is of degree at most 1 in a variable that occurs only, and linearly, in `gradin`. -/
theorem diffT_deg {e gradin r : Expr} (hw : e.WF) (hf : e.FactFree) (hd : e.deg w = 0)
    (h : diffT n v e gradin = .ok r) : r.deg w ≤ gradin.deg w := by
  induction n generalizing e gradin r with
  | zero => cases h
  | succ n ih =>
    cases e with
    | var i d c =>
      cases h
      split_ifs
      · exact le_refl _
      · exact Nat.zero_le _
    | zero | int | rat => cases h; exact Nat.zero_le _
    | un o f => exact diffUn_deg (Expr.deg_un_zero hd) (ih hw.1 hf (Expr.deg_un_zero hd)) h
    | bin o f g =>
      obtain ⟨h1, h2⟩ := Expr.deg_bin_zero hd
      refine diffBin_deg h1 h2 (ih hw.1 hf.1 h1) (ih hw.2.1 hf.2 h2) ?_ h
      rintro u rfl
      exact ih hw.2.1.1 hf.2 (Expr.deg_un_zero h2)
    | tern o f g k =>
      obtain ⟨h1, h2, h3⟩ := Expr.deg_tern_zero hd
      cases o with
      | ifElse =>
        obtain ⟨a, e1, h⟩ := bind_ok h
        obtain ⟨b, e2, h⟩ := bind_ok h
        have c1 := ih hw.2.1 hf.2.1 h2 e1
        have c2 := ih hw.2.2.1 hf.2.2 h3 e2
        unfold mkTern at h
        split_ifs at h
        cases h
        simp only [Expr.deg]
        omega
      | clamp =>
        obtain ⟨a, e1, h⟩ := bind_ok h
        obtain ⟨a1, a2⟩ := clampAlt_free ⟨hw.1, hw.2.1, hw.2.2.1⟩ hf e1
        exact ih a1 a2 (clampAlt_deg h1 h2 h3 e1) h
      | mod =>
        obtain ⟨a, e1, h⟩ := bind_ok h
        obtain ⟨a1, a2⟩ := modAlt_free ⟨hw.1, hw.2.1, hw.2.2.1⟩ hf e1
        exact ih a1 a2 (modAlt_deg h1 h2 h3 e1) h
    | fact => exact absurd hf id

theorem Expr.deg_inds {w : Int} {e : Expr} (h : w ∉ e.inds) : e.deg w = 0 := by
  induction e with
  | var i d c =>
    simp only [Expr.inds, List.mem_singleton] at h
    simp [Expr.deg, Ne.symm h]
  | zero | int | rat => rfl
  | un o f ih =>
    have := ih h
    simp [Expr.deg, this]
  | bin o f g i1 i2 =>
    simp only [Expr.inds, List.mem_append, not_or] at h
    have h1 := i1 h.1
    have h2 := i2 h.2
    cases o <;> simp [Expr.deg, h1, h2]
  | tern o f g k i1 i2 i3 =>
    simp only [Expr.inds, List.mem_append, not_or] at h
    have h1 := i1 h.1
    have h2 := i2 h.2.1
    have h3 := i3 h.2.2
    cases o <;> simp [Expr.deg, h1, h2, h3]
  | fact i d c f g i1 i2 =>
    simp only [Expr.inds, List.mem_append, not_or] at h
    simp [Expr.deg, i1 h.1, i2 h.2]

/-- Absence of `Factorize`, as a degree. -/
theorem Expr.deg_noFact {e : Expr} : e.deg .fact = 0 ↔ e.FactFree := by
  induction e with
  | var => simp [Expr.deg, Expr.FactFree]
  | zero | int | rat => simp [Expr.deg, Expr.FactFree]
  | un o f ih => simp only [Expr.FactFree, ← ih]; exact ⟨deg_un_zero, fun h => by simp [Expr.deg, h]⟩
  | bin o f g i1 i2 =>
    simp only [Expr.FactFree, ← i1, ← i2]
    exact ⟨deg_bin_zero, fun h => by cases o <;> simp [Expr.deg, h]⟩
  | tern o f g k i1 i2 i3 =>
    simp only [Expr.FactFree, ← i1, ← i2, ← i3]
    exact ⟨deg_tern_zero, fun h => by cases o <;> simp [Expr.deg, h]⟩
  | fact => simp [Expr.deg, Expr.FactFree]

/-- Gradients of formulas without `Factorize` have none. -/
theorem diffT_factFree {e gradin r : Expr} (hw : e.WF) (hf : e.FactFree) (hg : gradin.FactFree)
    (h : diffT n v e gradin = .ok r) : r.FactFree := by
  have := diffT_deg (w := .fact) hw hf (Expr.deg_noFact.mpr hf) h
  rw [Expr.deg_noFact.mpr hg] at this
  exact Expr.deg_noFact.mp (by omega)

/-- Occurrence of a variable, as a degree. -/
theorem Expr.deg_vars {e : Expr} (hf : e.FactFree) {i c : Int} {d : Nat} :
    (i, d, c) ∈ e.vars ↔ e.deg (.var i d c) ≠ 0 := by
  induction e with
  | var j d' c' => simp [Expr.deg, Expr.vars, eq_comm]
  | zero | int | rat => simp [Expr.deg, Expr.vars]
  | un o f ih =>
    simp only [Expr.vars, ih hf, ne_eq, not_iff_not]
    exact ⟨fun h => by simp [Expr.deg, h], deg_un_zero⟩
  | bin o f g i1 i2 =>
    simp only [Expr.vars, List.mem_append, i1 hf.1, i2 hf.2, ne_eq, ← not_and_or, not_iff_not]
    exact ⟨fun h => by cases o <;> simp [Expr.deg, h], deg_bin_zero⟩
  | tern o f g k i1 i2 i3 =>
    simp only [Expr.vars, List.mem_append, i1 hf.1, i2 hf.2.1, i3 hf.2.2, ne_eq, ← not_and_or,
      not_iff_not]
    exact ⟨fun h => by cases o <;> simp [Expr.deg, h], deg_tern_zero⟩
  | fact => exact absurd hf id

/-- The variables of a gradient are those of the formula and of `gradin`. -/
theorem diffT_vars {e gradin r : Expr} (hw : e.WF) (hf : e.FactFree) (hg : gradin.FactFree)
    (h : diffT n v e gradin = .ok r) {t : Int × Nat × Int} (ht : t ∈ r.vars) :
    t ∈ e.vars ∨ t ∈ gradin.vars := by
  have hr := diffT_factFree hw hf hg h
  by_contra hc
  rw [not_or, Expr.deg_vars hf, Expr.deg_vars hg, not_not, not_not] at hc
  have := diffT_deg (w := .var t.1 t.2.1 t.2.2) hw hf hc.1 h
  exact (Expr.deg_vars hr).mp ht (Nat.le_zero.mp (this.trans_eq hc.2))

end

end Verif
