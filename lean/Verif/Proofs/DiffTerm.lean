import Verif.Proofs.DiffT

/-!
# Gradients come to an end
-/

namespace Verif

open Spec

/-- From some depth on, the outcome no longer changes; if it is a formula then it satisfies `P`. -/
def Fine (P : Expr → Prop) (F : Nat → Except Err Expr) : Prop :=
  ∃ N x, x ≠ .error .fuel ∧ (∀ n, N ≤ n → F n = x) ∧ ∀ r, x = .ok r → P r

section Fine

variable {P Q : Expr → Prop} {F : Nat → Except Err Expr}

theorem Fine.const {x : Except Err Expr} (h1 : ∀ er, x = .error er → er ≠ .fuel)
    (h2 : ∀ r, x = .ok r → P r) : Fine P fun _ => x :=
  ⟨0, x, fun h => h1 _ h rfl, fun _ _ => rfl, h2⟩

theorem Fine.ok {e : Expr} (h : P e) : Fine P fun _ => .ok e :=
  Fine.const (fun _ h => by cases h) (fun r hr => by cases hr; exact h)

theorem Fine.bind {K : Nat → Expr → Except Err Expr} (hf : Fine P F)
    (hg : ∀ e, P e → Fine Q fun n => K n e) : Fine Q fun n => F n >>= K n := by
  obtain ⟨N, x, hx, hN, hP⟩ := hf
  cases x with
  | error er =>
    refine ⟨N, .error er, hx, fun n hn => ?_, fun r h => by cases h⟩
    simp only [hN n hn]; rfl
  | ok e =>
    obtain ⟨M, y, hy, hM, hQ⟩ := hg e (hP e rfl)
    refine ⟨max N M, y, hy, fun n hn => ?_, hQ⟩
    simp only [hN n (by omega)]
    exact hM n (by omega)

theorem Fine.mono (h : Fine P F) (hPQ : ∀ r, P r → Q r) : Fine Q F := by
  obtain ⟨N, x, hx, hN, hP⟩ := h
  exact ⟨N, x, hx, hN, fun r hr => hPQ r (hP r hr)⟩

theorem Fine.succ {H : Nat → Except Err Expr} (h : Fine P F) (he : ∀ n, H (n + 1) = F n) : Fine P H := by
  obtain ⟨N, x, hx, hN, hP⟩ := h
  refine ⟨N + 1, x, hx, fun n hn => ?_, hP⟩
  obtain ⟨m, rfl⟩ : ∃ m, n = m + 1 := ⟨n - 1, by omega⟩
  rw [he]; exact hN m (by omega)

theorem Fine.post (Δ : Domain) {q : Req} (hq : q.Pre) : Fine (Post Δ q) fun n => build n q :=
  ⟨q.meas + 1, _, build_terminates hq (Nat.lt_succ_self _), fun _ hn =>
    build_mono hn (build_terminates hq (Nat.lt_succ_self _)), fun _ hr => build_post hq hr⟩

theorem Fine.build {q : Req} (hq : q.Pre) : Fine Expr.WF fun n => Verif.build n q :=
  (Fine.post .triv hq).mono fun _ h => h.wf

theorem Fine.mkUn {o : Un} {f : Expr} (hf : f.WF) (hd : 0 < o.dim f.dim) (ho : ∀ n, o ≠ .sumT n) :
    Fine Expr.WF fun _ => mkUn o f :=
  Fine.const (fun _ h => mkUn_err h) fun _ h => (mkUn_rep hf hd ho h).wf

theorem Fine.mkBin {o : Bin} {f g : Expr} (hf : f.WF) (hg : g.WF) :
    Fine Expr.WF fun _ => mkBin o f g :=
  Fine.const (fun _ h => mkBin_err h) fun _ h => (mkBin_rep hf hg h).wf

theorem Fine.sumT {f : Expr} {d : Nat} (hf : f.WF) (hd : 0 < d) : Fine Expr.WF fun _ => sumT f d :=
  Fine.const (fun _ h => sumT_err h) fun _ h => (sumT_ok hf hd h).2.1

theorem Fine.square {f : Expr} (hf : f.WF) : Fine Expr.WF fun _ => square f :=
  Fine.const (fun _ h => square_err h) fun _ h => (square_ok hf h).1

theorem Fine.pow {f : Expr} {m : Int} (hf : f.WF) : Fine Expr.WF fun _ => pow f m := by
  refine Fine.const (fun er h => ?_) fun _ h => (pow_rep hf h).wf
  unfold Verif.pow at h
  split_ifs at h
  exact mkUn_err h

theorem Fine.opPow {f : Expr} {m : Int} (hf : f.WF) : Fine Expr.WF fun _ => opPow f m := by
  refine Fine.const (fun er h => ?_) fun _ h => (opPow_rep hf h).wf
  unfold Verif.opPow at h
  split_ifs at h
  · exact square_err h
  · unfold Verif.pow at h
    split_ifs at h
    exact mkUn_err h

theorem Fine.rat {p q : Int} : Fine Expr.WF fun _ => ratCst p q :=
  Fine.const (fun _ h => ratCst_err h) fun _ h => (ratCst_ok h).1

end Fine

/-- No factorization. -/
def Domain.factFree : Domain := { Domain.triv with fact := fun _ _ _ => False }

theorem Expr.dom_factFree (e : Expr) (env : Env) : e.Dom .factFree env ↔ e.FactFree := by
  induction e with
  | var | zero | int | rat => exact Iff.rfl
  | un o f ih =>
    have : Domain.factFree.un' o f.dim (f.val env) := by cases o <;> trivial
    simp only [Expr.Dom, Expr.FactFree, ih, this, and_true]
  | bin o f g i1 i2 =>
    have : Domain.factFree.bin' o f.dim g.dim (f.val env) (g.val env) := by cases o <;> trivial
    simp only [Expr.Dom, Expr.FactFree, i1, i2, this, and_true]
  | tern o f g h i1 i2 i3 =>
    have : Domain.factFree.tern o f.dim g.dim h.dim (f.val env) (g.val env) (h.val env) := trivial
    simp only [Expr.Dom, Expr.FactFree, i1, i2, i3, this, and_true]
  | fact => exact ⟨fun h => absurd h.1 id, fun h => absurd h id⟩

/-- Well formed, without factorization, of bounded weight. -/
def Small (b : Nat) (e : Expr) : Prop := e.WF ∧ e.FactFree ∧ e.wt ≤ b

theorem Fine.small {q : Req} (hq : q.Pre) (hd : q.Dom .factFree (fun _ _ => 0)) {b : Nat}
    (hb : q.wt ≤ b) : Fine (Small b) fun n => Verif.build n q :=
  (Fine.post .factFree hq).mono fun r h =>
    ⟨h.wf, (r.dom_factFree _).mp (h.sem _ hd).1, h.wt.trans hb⟩

theorem Small.dom {b : Nat} {e : Expr} (h : Small b e) : e.Dom .factFree (fun _ _ => 0) :=
  (e.dom_factFree _).mpr h.2.1

theorem clampAlt_fine {f g h : Expr} {a b c : Nat} (hf : Small a f) (hg : Small b g) (hh : Small c h) :
    Fine (Small (a + 4 * b + 2 * c + 10)) fun n => clampAlt n f g h := by
  unfold clampAlt
  have w2 := @wt2_le
  refine (Fine.small (b := a + b + 1) (q := .sub f g) ⟨hf.1, hg.1⟩ ⟨hf.dom, hg.dom⟩
    ((w2 f g).trans (by have := hf.2.2; have := hg.2.2; omega))).bind fun s hs => ?_
  refine (Fine.small (b := c + b + 1) (q := .sub h g) ⟨hh.1, hg.1⟩ ⟨hh.dom, hg.dom⟩
    ((w2 h g).trans (by have := hh.2.2; have := hg.2.2; omega))).bind fun t ht => ?_
  refine (Fine.small (b := a + 2 * b + c + 3) (q := .div s t) ⟨hs.1, ht.1⟩ ⟨hs.dom, ht.dom, trivial⟩
    (by have := hs.2.2; have := ht.2.2; simp only [Req.wt]; omega)).bind fun u hu => ?_
  refine Fine.bind (P := Small (a + 2 * b + c + 4)) (Fine.const (fun _ h => mkUn_err h) fun r hr => ?_)
    fun w hw => ?_
  · obtain ⟨rfl, hok⟩ := mkUn_ok hr
    refine ⟨⟨hu.1, hok, hu.1.pos, fun n hn => by cases hn⟩, hu.2.1, ?_⟩
    have := hu.2.2
    simp only [Expr.wt]; omega
  refine (Fine.small (b := c + b + 1) (q := .sub h g) ⟨hh.1, hg.1⟩ ⟨hh.dom, hg.dom⟩
    ((w2 h g).trans (by have := hh.2.2; have := hg.2.2; omega))).bind fun t' ht' => ?_
  refine (Fine.small (b := a + 3 * b + 2 * c + 6) (q := .mul w t') ⟨hw.1, ht'.1⟩ ⟨hw.dom, ht'.dom⟩
    ((w2 w t').trans (by have := hw.2.2; have := ht'.2.2; omega))).bind fun y hy => ?_
  exact Fine.small (q := .add y g) ⟨hy.1, hg.1⟩ ⟨hy.dom, hg.dom⟩
    ((w2 y g).trans (by have := hy.2.2; have := hg.2.2; omega))

theorem modAlt_fine {f g h : Expr} {a b c : Nat} (hf : Small a f) (hg : Small b g) (hh : Small c h) :
    Fine (Small (2 * a + 2 * b + c + 10)) fun n => modAlt n f g h := by
  unfold modAlt
  have w2 := @wt2_le
  refine (Fine.small (b := a + c + 1) (q := .sub f h) ⟨hf.1, hh.1⟩ ⟨hf.dom, hh.dom⟩
    ((w2 f h).trans (by have := hf.2.2; have := hh.2.2; omega))).bind fun s hs => ?_
  refine (Fine.small (b := a + b + c + 2) (q := .div s g) ⟨hs.1, hg.1⟩ ⟨hs.dom, hg.dom, trivial⟩
    (by have := hs.2.2; have := hg.2.2; simp only [Req.wt]; omega)).bind fun u hu => ?_
  refine Fine.bind (P := Small (a + b + c + 3)) (Fine.const (fun _ h => mkUn_err h) fun r hr => ?_)
    fun w hw => ?_
  · obtain ⟨rfl, hok⟩ := mkUn_ok hr
    refine ⟨⟨hu.1, hok, hu.1.pos, fun n hn => by cases hn⟩, hu.2.1, ?_⟩
    have := hu.2.2
    simp only [Expr.wt]; omega
  refine (Fine.small (b := a + 2 * b + c + 4) (q := .mul g w) ⟨hg.1, hw.1⟩ ⟨hg.dom, hw.dom⟩
    ((w2 g w).trans (by have := hw.2.2; have := hg.2.2; omega))).bind fun y hy => ?_
  exact Fine.small (q := .sub f y) ⟨hf.1, hy.1⟩ ⟨hf.dom, hy.dom⟩
    ((w2 f y).trans (by have := hy.2.2; have := hf.2.2; omega))

section

variable {f g gradin : Expr}

theorem derivUn_fine {o : Un} (hf : f.WF) : Fine Expr.WF fun n => derivUn n o f := by
  have hp := hf.pos
  unfold derivUn
  cases o with
  | exp => exact Fine.mkUn hf (by exact hp) (by simp)
  | square => exact Fine.build ⟨intCst_wf 2, hf⟩
  | pow m => exact (Fine.pow hf).bind fun p h => Fine.build ⟨intCst_wf m, h⟩
  | inv => exact (Fine.opPow hf).bind fun p h => Fine.build ⟨intCst_wf (-1), h⟩
  | sqrt => exact Fine.rat.bind fun c h => (Fine.mkUn hf (by exact hp) (by simp)).bind fun r h' => Fine.build ⟨h, h'⟩
  | rsqrt =>
    exact Fine.rat.bind fun c h => (Fine.mkUn hf (by exact hp) (by simp)).bind fun r h' =>
      (Fine.opPow h').bind fun p hp => Fine.build ⟨h, hp⟩
  | log => exact Fine.mkUn hf (by exact hp) (by simp)
  | abs => exact Fine.mkUn hf (by exact hp) (by simp)
  | cos => exact (Fine.mkUn hf (by exact hp) (by simp)).bind fun s h => Fine.build h
  | sin => exact Fine.mkUn hf (by exact hp) (by simp)
  | acos =>
    exact (Fine.opPow hf).bind fun s h => (Fine.build (q := .sub _ _) ⟨intCst_wf 1, h⟩).bind fun t h =>
      (Fine.mkUn h (by exact h.pos) (by simp)).bind fun r h => Fine.build h
  | asin =>
    exact (Fine.opPow hf).bind fun s h => (Fine.build (q := .sub _ _) ⟨intCst_wf 1, h⟩).bind fun t h =>
      Fine.mkUn h (by exact h.pos) (by simp)
  | atan =>
    exact (Fine.opPow hf).bind fun s h => (Fine.build (q := .add _ _) ⟨intCst_wf 1, h⟩).bind fun t h =>
      Fine.mkUn h (by exact h.pos) (by simp)
  | sinXDivX =>
    exact (Fine.mkUn hf (by exact hp) (by simp)).bind fun c hc => (Fine.build (q := .div _ _) ⟨hc, hf⟩).bind
      fun t1 h1 => (Fine.mkUn hf (by exact hp) (by simp)).bind fun s hs => (Fine.opPow hf).bind fun q hq =>
        (Fine.build (q := .div _ _) ⟨hs, hq⟩).bind fun t2 h2 => Fine.build ⟨h1, h2⟩
  | xLogX =>
    exact (Fine.mkUn hf (by exact hp) (by simp)).bind fun l h => Fine.build ⟨h, intCst_wf 1⟩
  | relu => exact Fine.mkUn hf (by exact hp) (by simp)
  | clampInt a b => exact Fine.mkUn hf (by exact hp) (by simp)
  | _ => exact Fine.const (fun _ h => by cases h; simp) (fun _ h => by cases h)

/-- The recursive calls come to an end. -/
def FineD (D : Nat → Expr → Expr → Except Err Expr) (f : Expr) : Prop :=
  ∀ g : Expr, g.WF → Fine Expr.WF fun n => D n f g

variable {D : Nat → Expr → Expr → Except Err Expr}

theorem chainTerm_fine {df : Expr} (hD : FineD D f) (hg : gradin.WF) (hdf : df.WF) :
    Fine Expr.WF fun n => chainTerm n (D n f) gradin df := by
  unfold chainTerm
  split_ifs
  · exact (hD _ hg).bind fun t h => Fine.build ⟨h, hdf⟩
  · exact (Fine.build (q := .mul _ _) ⟨hg, hdf⟩).bind fun s h => hD s h

theorem chainBin_fine {df dg : Expr} (hD : FineD D f) (hD' : FineD D g) (hg : gradin.WF) (hdf : df.WF)
    (hdg : dg.WF) : Fine Expr.WF fun n => chainBin n (D n f) (D n g) gradin df dg :=
  (chainTerm_fine hD hg hdf).bind fun t h => (Fine.build (q := .add _ _) ⟨intCst_wf 0, h⟩).bind
    fun s hs => (chainTerm_fine hD' hg hdg).bind fun t' h' => Fine.build ⟨hs, h'⟩

theorem diffUn_fine {v : VarId} {o : Un} (hw : (Expr.un o f).WF) (hv : 0 < v.dim) (hD : FineD D f)
    (hg : gradin.WF) : Fine Expr.WF fun n => diffUn n (D n) v o f gradin := by
  have hf := hw.1
  have hp := hf.pos
  have chain : Fine Expr.WF fun n => (do let df ← derivUn n o f; chainUn n (D n f) gradin df) :=
    (derivUn_fine hf).bind fun df h => (chainTerm_fine hD hg h).bind fun t ht =>
      Fine.build ⟨intCst_wf 0, ht⟩
  have zero : Fine Expr.WF fun _ => .ok (.zero v.dim) := Fine.ok hv
  cases o with
  | minus => exact (hD _ hg).bind fun t h => Fine.build h
  | sign | step | diffClampInt _ _ | round _ | floor | oneHot _ | argMax | argMin => exact zero
  | sum => exact (Fine.sumT hg hp).bind fun s h => hD s h
  | sumT _ => exact (Fine.build (q := .sum _) hg).bind fun s h => hD s h
  | elem m => exact (Fine.mkUn hg (by exact hp) (by simp)).bind fun s h => hD s h
  | elemT n m => exact (Fine.mkUn hg (by exact Nat.one_pos) (by simp)).bind fun s h => hD s h
  | extract s d => exact (Fine.mkUn hg (by exact hp) (by simp)).bind fun t h => hD t h
  | extractT s d => exact (Fine.mkUn hg (by exact hp) (by simp)).bind fun t h => hD t h
  | max =>
    exact (Fine.mkUn hf (by exact Nat.one_pos) (by simp)).bind fun a ha => (Fine.mkUn ha (by exact hp) (by simp)).bind
      fun s hs => (Fine.build (q := .mul _ _) ⟨hs, hg⟩).bind fun t ht => hD t ht
  | min =>
    exact (Fine.mkUn hf (by exact Nat.one_pos) (by simp)).bind fun a ha => (Fine.mkUn ha (by exact hp) (by simp)).bind
      fun s hs => (Fine.build (q := .mul _ _) ⟨hs, hg⟩).bind fun t ht => hD t ht
  | _ => exact chain

/-- Pairs of formulas. -/
theorem derivPowf_fine (hf : f.WF) (hg : g.WF) {K : Nat → Expr × Expr → Except Err Expr}
    (hK : ∀ d : Expr × Expr, d.1.WF → d.2.WF → Fine Expr.WF fun n => K n d) :
    Fine Expr.WF fun n => derivPowf n f g >>= K n := by
  have e : (fun n => derivPowf n f g >>= K n) = fun n => (do
      let b1 ← build n (.sub g (intCst 1))
      let p1 ← mkBin .powf f b1
      let d1 ← build n (.mul g p1)
      let l ← mkUn .log f
      let p ← mkBin .powf f g
      let d2 ← build n (.mul l p)
      K n (d1, d2)) := by
    funext n; simp [derivPowf]
  rw [e]
  exact (Fine.build (q := .sub _ _) ⟨hg, intCst_wf 1⟩).bind fun b1 h1 => (Fine.mkBin hf h1).bind
    fun p1 h2 => (Fine.build (q := .mul _ _) ⟨hg, h2⟩).bind fun d1 h3 =>
    (Fine.mkUn hf (by exact hf.pos) (by simp)).bind fun l h4 => (Fine.mkBin hf hg).bind fun p h5 =>
    (Fine.build (q := .mul _ _) ⟨h4, h5⟩).bind fun d2 h6 => hK (d1, d2) h3 h6

theorem derivAtan2_fine (hf : f.WF) (hg : g.WF) {K : Nat → Expr × Expr → Except Err Expr}
    (hK : ∀ d : Expr × Expr, d.1.WF → d.2.WF → Fine Expr.WF fun n => K n d) :
    Fine Expr.WF fun n => derivAtan2 n f g >>= K n := by
  have e : (fun n => derivAtan2 n f g >>= K n) = fun n => (do
      let f2 ← opPow f 2
      let g2 ← opPow g 2
      let r2 ← build n (.add f2 g2)
      let d1 ← build n (.div g r2)
      let mf ← build n (.minus f)
      let d2 ← build n (.div mf r2)
      K n (d1, d2)) := by
    funext n; simp [derivAtan2]
  rw [e]
  exact (Fine.opPow hf).bind fun f2 h1 => (Fine.opPow hg).bind fun g2 h2 =>
    (Fine.build (q := .add _ _) ⟨h1, h2⟩).bind fun r2 h3 =>
    (Fine.build (q := .div _ _) ⟨hg, h3⟩).bind fun d1 h4 => (Fine.build (q := .minus _) hf).bind
    fun mf h5 => (Fine.build (q := .div _ _) ⟨h5, h3⟩).bind fun d2 h6 => hK (d1, d2) h4 h6

theorem addGrad_fine (hg : gradin.WF) : Fine Expr.WF fun n => addGrad n f g gradin := by
  unfold addGrad
  split_ifs
  · exact Fine.build hg
  · exact Fine.ok hg

theorem mulGrad_fine (hgr : gradin.WF) (hg : g.WF) : Fine Expr.WF fun n => mulGrad n f g gradin := by
  unfold mulGrad
  split_ifs
  · exact Fine.build ⟨hgr, hg⟩
  · exact Fine.build ⟨hg, hgr⟩

theorem diffBin_fine {v : VarId} {o : Bin} (hw : (Expr.bin o f g).WF) (hv : 0 < v.dim)
    (hDf : FineD D f) (hDg : FineD D g) (hDu : ∀ u, g = .un .exp u → FineD D u)
    (hG : gradin.WF) : Fine Expr.WF fun n => diffBin n (D n) v o f g gradin := by
  have hf := hw.1
  have hg := hw.2.1
  unfold diffBin
  cases o with
  | add =>
    exact (addGrad_fine hG).bind fun s hs => (hDf s hs).bind fun a ha =>
      (addGrad_fine hG).bind fun s' hs' => (hDg s' hs').bind fun b hb => Fine.build ⟨ha, hb⟩
  | sub =>
    exact (addGrad_fine hG).bind fun s hs => (hDf s hs).bind fun a ha =>
      (addGrad_fine hG).bind fun s' hs' => (hDg s' hs').bind fun b hb => Fine.build ⟨ha, hb⟩
  | mul =>
    simp only
    split
    · rename_i u hu hd1
      exact (hDf _ hG).bind fun a ha => (Fine.build (q := .scalprod _ _) ⟨hG, hf⟩).bind fun s hs =>
        (hDu u (asUn_exp hu) s hs).bind fun b hb => (Fine.build (q := .add _ _) ⟨ha, hb⟩).bind fun t ht =>
        Fine.build ⟨ht, hg⟩
    · exact (mulGrad_fine hG hg).bind fun s hs => (hDf s hs).bind fun a ha =>
        (mulGrad_fine hG hf).bind fun s' hs' => (hDg s' hs').bind fun b hb => Fine.build ⟨ha, hb⟩
  | div =>
    simp only
    split_ifs
    · exact (Fine.build (q := .div _ _) ⟨hG, hg⟩).bind fun q hq => (Fine.build (q := .sum _) hq).bind
        fun s hs => (hDf s hs).bind fun a ha => (Fine.build (q := .mul _ _) ⟨hf, hG⟩).bind fun p hp =>
        (Fine.square hg).bind fun g2 h2 => (Fine.build (q := .div _ _) ⟨hp, h2⟩).bind fun s' hs' =>
        (hDg s' hs').bind fun b hb => Fine.build ⟨ha, hb⟩
    · exact (Fine.build (q := .mul _ _) ⟨hg, hG⟩).bind fun s hs => (hDf s hs).bind fun a ha =>
        (Fine.build (q := .scalprod _ _) ⟨hG, hf⟩).bind fun s' hs' => (hDg s' hs').bind fun b hb =>
        (Fine.build (q := .sub _ _) ⟨ha, hb⟩).bind fun t ht => (Fine.square hg).bind fun g2 h2 =>
        Fine.build ⟨ht, h2⟩
    · exact (Fine.build (q := .div _ _) ⟨hG, hg⟩).bind fun s hs => (hDf s hs).bind fun a ha =>
        (Fine.build (q := .mul _ _) ⟨hf, hG⟩).bind fun p hp =>
        (Fine.square hg).bind fun g2 h2 => (Fine.build (q := .div _ _) ⟨hp, h2⟩).bind fun s' hs' =>
        (hDg s' hs').bind fun b hb => Fine.build ⟨ha, hb⟩
  | powf => exact derivPowf_fine hf hg fun d h1 h2 => chainBin_fine hDf hDg hG h1 h2
  | atan2 => exact derivAtan2_fine hf hg fun d h1 h2 => chainBin_fine hDf hDg hG h1 h2
  | lessThan | lessOrEqual | equal | notEqual => exact Fine.ok hv
  | scalprod =>
    exact (hDf g hg).bind fun a ha => (hDg f hf).bind fun b hb =>
      (Fine.build (q := .add _ _) ⟨ha, hb⟩).bind fun s hs => Fine.build ⟨hG, hs⟩
  | concat =>
    exact (Fine.mkUn hG (by exact hf.pos) (by simp)).bind fun s hs => (hDf s hs).bind fun a ha =>
      (Fine.mkUn hG (by exact hg.pos) (by simp)).bind fun s' hs' => (hDg s' hs').bind fun b hb => Fine.build ⟨ha, hb⟩
  | matVecMult =>
    exact (Fine.mkBin hG hg).bind fun s hs => (hDf s hs).bind fun a ha =>
      (Fine.mkBin hG hf).bind fun s' hs' => (hDg s' hs').bind fun b hb => Fine.build ⟨ha, hb⟩
  | vecMatMult =>
    exact (Fine.mkBin hf hG).bind fun s hs => (hDg s hs).bind fun a ha =>
      (Fine.mkBin hg hG).bind fun s' hs' => (hDf s' hs').bind fun b hb => Fine.build ⟨ha, hb⟩
  | tensorProd =>
    exact (Fine.mkBin hG hg).bind fun s hs => (hDf s hs).bind fun a ha =>
      (Fine.mkBin hf hG).bind fun s' hs' => (hDg s' hs').bind fun b hb => Fine.build ⟨ha, hb⟩

end

/-- `DiffT` comes to an end, and returns a well-formed formula. -/
theorem diffT_fine {v : VarId} (hv : 0 < v.dim) {e : Expr} (hw : e.WF) (hff : e.FactFree) :
    FineD (fun n => diffT n v) e := by
  induction hk : e.wt using Nat.strong_induction_on generalizing e with
  | _ k ih =>
  intro gradin hG
  have hrec : ∀ f : Expr, f.WF → f.FactFree → f.wt < k → FineD (fun n => diffT n v) f :=
    fun f h1 h2 h3 => ih f.wt h3 h1 h2 rfl
  cases e with
  | var i d c =>
    refine Fine.succ (F := fun _ => .ok (if v = ⟨i, d, c⟩ then gradin else .zero v.dim)) (Fine.ok ?_)
      fun _ => rfl
    split
    · exact hG
    · exact hv
  | zero | int | rat => exact Fine.succ (F := fun _ => .ok (.zero v.dim)) (Fine.ok hv) fun _ => rfl
  | un o f =>
    exact Fine.succ (diffUn_fine (D := fun n => diffT n v) hw hv
      (hrec f hw.1 hff (by simp only [Expr.wt] at hk; omega)) hG) fun _ => rfl
  | bin o f g =>
    have h1 : f.wt < k := by cases o <;> simp only [Expr.wt] at hk <;> omega
    have h2 : g.wt < k := by cases o <;> simp only [Expr.wt] at hk <;> omega
    refine Fine.succ (diffBin_fine (D := fun n => diffT n v) hw hv (hrec f hw.1 hff.1 h1)
      (hrec g hw.2.1 hff.2 h2) ?_ hG) fun _ => rfl
    rintro u rfl
    exact hrec u hw.2.1.1 hff.2 (by simp only [Expr.wt] at h2; omega)
  | tern o f g h =>
    simp only [Expr.wt] at hk
    cases o with
    | ifElse =>
      refine Fine.succ (F := fun n => do
        let a' ← diffT n v g gradin
        let b' ← diffT n v h gradin
        mkTern .ifElse f a' b') ?_ fun _ => rfl
      refine (hrec g hw.2.1 hff.2.1 (by omega) _ hG).bind fun a' ha =>
        (hrec h hw.2.2.1 hff.2.2 (by omega) _ hG).bind fun b' hb =>
          Fine.const (fun er he => ?_) fun r hr => (mkTern_rep hw.1 ha hb hr).wf
      unfold mkTern at he
      split at he <;> cases he
      simp
    | clamp =>
      refine Fine.succ (F := fun n => do
        let e' ← clampAlt n f g h
        diffT n v e' gradin) ?_ fun _ => rfl
      exact (clampAlt_fine ⟨hw.1, hff.1, le_refl _⟩ ⟨hw.2.1, hff.2.1, le_refl _⟩
        ⟨hw.2.2.1, hff.2.2, le_refl _⟩).bind fun e' he' =>
          hrec e' he'.1 he'.2.1 (by have := he'.2.2; omega) _ hG
    | mod =>
      refine Fine.succ (F := fun n => do
        let e' ← modAlt n f g h
        diffT n v e' gradin) ?_ fun _ => rfl
      exact (modAlt_fine ⟨hw.1, hff.1, le_refl _⟩ ⟨hw.2.1, hff.2.1, le_refl _⟩
        ⟨hw.2.2.1, hff.2.2, le_refl _⟩).bind fun e' he' =>
          hrec e' he'.1 he'.2.1 (by have := he'.2.2; omega) _ hG
  | fact => exact absurd hff id

end Verif
