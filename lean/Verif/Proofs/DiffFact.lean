import Verif.Proofs.Factorize

/-!
# Gradients of factorized formulas
-/

namespace Verif

open Spec

/-- Same conditions as `Domain.smooth`, with factorizations. -/
def Domain.smoothF (v : VarId) : Domain := { Domain.smooth v with fact := fun i _ _ => i ≠ v.ind }

section

variable {v : VarId} {env : Env} {e f g r : Expr}

theorem Expr.dom_smoothF : e.Dom (.smoothF v) env ↔ e.Smooth env ∧ e.NoBroadcast ∧ e.Uses v := by
  induction e generalizing env with
  | var => exact ⟨fun h => ⟨trivial, trivial, h⟩, fun h => h.2.2⟩
  | zero | int | rat => exact ⟨fun _ => ⟨trivial, trivial, trivial⟩, fun _ => trivial⟩
  | un o f ih =>
    have h1 : (Domain.smoothF v).un' o f.dim (f.val env) ↔ unSmooth o f.dim (f.val env) := by
      cases o <;> exact Iff.rfl
    simp only [Expr.Dom, Expr.Smooth, Expr.NoBroadcast, Expr.Uses, h1, ih]
    tauto
  | bin o f g i1 i2 =>
    have h1 : (Domain.smoothF v).bin' o f.dim g.dim (f.val env) (g.val env) ↔
        binSmooth o f.dim g.dim (f.val env) (g.val env) ∧ (o = .powf ∨ o = .atan2 → f.dim = g.dim) := by
      cases o <;> simp [Domain.bin', Domain.smoothF, Domain.smooth, binSmooth]
    have h2 : (Expr.bin o f g).NoBroadcast ↔
        f.NoBroadcast ∧ g.NoBroadcast ∧ (o = .powf ∨ o = .atan2 → f.dim = g.dim) := by
      cases o <;> simp [Expr.NoBroadcast]
    simp only [Expr.Dom, Expr.Smooth, Expr.Uses, i1, i2, h1, h2]
    exact ⟨fun ⟨⟨a1, a2, a3⟩, ⟨b1, b2, b3⟩, c, c'⟩ => ⟨⟨a1, b1, c⟩, ⟨a2, b2, c'⟩, a3, b3⟩,
      fun ⟨⟨a1, b1, c⟩, ⟨a2, b2, c'⟩, a3, b3⟩ => ⟨⟨a1, a2, a3⟩, ⟨b1, b2, b3⟩, c, c'⟩⟩
  | tern o f g h i1 i2 i3 =>
    have h2 : (Expr.tern o f g h).NoBroadcast ↔
        f.NoBroadcast ∧ g.NoBroadcast ∧ h.NoBroadcast ∧ (o = .ifElse → f.dim = 1 ∧ g.dim = h.dim) := by
      cases o <;> simp [Expr.NoBroadcast]
    simp only [Expr.Dom, Expr.Smooth, Expr.Uses, i1, i2, i3, h2]
    exact ⟨fun ⟨⟨a1, a2, a3⟩, ⟨b1, b2, b3⟩, ⟨e1, e2, e3⟩, c, c'⟩ =>
        ⟨⟨a1, b1, e1, c⟩, ⟨a2, b2, e2, c'⟩, a3, b3, e3⟩,
      fun ⟨⟨a1, b1, e1, c⟩, ⟨a2, b2, e2, c'⟩, a3, b3, e3⟩ =>
        ⟨⟨a1, a2, a3⟩, ⟨b1, b2, b3⟩, ⟨e1, e2, e3⟩, c, c'⟩⟩
  | fact i d c f g i1 i2 =>
    simp only [Expr.Dom, Expr.Smooth, Expr.NoBroadcast, Expr.Uses, i1, i2]
    exact ⟨fun ⟨a, ⟨b1, b2, b3⟩, e1, e2, e3⟩ => ⟨⟨b1, e1⟩, ⟨e2, b2⟩, a, e3, b3⟩,
      fun ⟨⟨b1, e1⟩, ⟨e2, b2⟩, a, e3, b3⟩ => ⟨a, ⟨b1, b2, b3⟩, e1, e2, e3⟩⟩

/-- A variable disappears when it is replaced. -/
theorem Expr.replace_var {i c : Int} {d : Nat} {new : Expr} {t : Int × Nat × Int}
    (h : t ∈ (e.replace (.var i d c) new).vars) : t ∈ new.vars ∨ (t ∈ e.vars ∧ t ≠ (i, d, c)) := by
  induction e with
  | var i' d' c' =>
    unfold Expr.replace at h
    split_ifs at h with h1
    · exact .inl h
    · refine .inr ⟨h, fun h2 => h1 ?_⟩
      simp only [Expr.vars, List.mem_singleton] at h
      rw [h] at h2
      simp only [Prod.mk.injEq] at h2
      obtain ⟨rfl, rfl, rfl⟩ := h2
      rfl
  | zero | int | rat =>
    unfold Expr.replace at h
    rw [if_neg nofun] at h
    simp [Expr.vars] at h
  | un o f ih =>
    unfold Expr.replace at h
    rw [if_neg nofun] at h
    exact ih h
  | bin o f g i1 i2 =>
    unfold Expr.replace at h
    rw [if_neg nofun] at h
    simp only [Expr.vars, List.mem_append] at h ⊢
    rcases h with h | h
    · have := i1 h; tauto
    · have := i2 h; tauto
  | tern o f g k i1 i2 i3 =>
    unfold Expr.replace at h
    rw [if_neg nofun] at h
    simp only [Expr.vars, List.mem_append] at h ⊢
    rcases h with h | h | h
    · have := i1 h; tauto
    · have := i2 h; tauto
    · have := i3 h; tauto
  | fact j d' c' f g i1 i2 =>
    unfold Expr.replace at h
    rw [if_neg nofun] at h
    simp only [Expr.vars, List.mem_append] at h ⊢
    rcases h with h | h
    · have := i1 h; tauto
    · have := i2 h; tauto

/-- The definition of a temporary variable is put back. -/
theorem unfold_stand {Δ : Domain} {i c : Int} {d : Nat} (he : (Expr.fact i d c f g).Scoped)
    (hw : (Expr.fact i d c f g).WF) :
    (f.replace (.var i d c) g).Scoped ∧ Stand Δ env (.fact i d c f g) (f.replace (.var i d c) g) := by
  obtain ⟨h1, h2, h3, h4, h5, h6⟩ := he
  have hi : i ∉ (f.replace (.var i d c) g).inds := by
    intro h
    obtain ⟨t, ht, hti⟩ := Expr.mem_inds.mp h
    rcases Expr.replace_var ht with h | h
    · exact h6 (vars_inds' h hti)
    · exact h.2 (h4 t h.1 hti)
  have hs : ∀ s ∈ f.tempVars, s.1 ∉ (Expr.var i d c).inds ∧ s.1 ∉ g.inds := fun s h =>
    ⟨by simpa [Expr.inds] using (h5 s h).1, (h5 s h).2⟩
  refine ⟨h1.replace trivial h2 hs, ?_⟩
  have hg : g.Dom Δ env → Stand Δ (Function.update env i (g.val env)) (.var i d c) g := fun hD => by
    refine ⟨hw.2.2, fun _ => hw.2.1, ?_, fun _ => (Expr.dom_update h6 _).mpr hD⟩
    rw [Expr.val_update h6]
    simp only [Expr.val, Function.update_self, ← hw.2.2]
    exact (cst_val hw.2.1 env).symm
  have hg0 : Stand .triv (Function.update env i (g.val env)) (.var i d c) g := by
    refine ⟨hw.2.2, fun _ => hw.2.1, ?_, fun _ => Expr.dom_triv _ _⟩
    rw [Expr.val_update h6]
    simp only [Expr.val, Function.update_self, ← hw.2.2]
    exact (cst_val hw.2.1 env).symm
  have hr := Stand.replaceScoped (old := .var i d c) h1 trivial hg0 hs
  refine ⟨hr.dim, fun h => hr.wf h.1, ?_, fun hD => ?_⟩
  · rw [← Expr.val_update hi (g.val env), hr.val]
    rfl
  · rw [← Expr.dom_update hi (g.val env)]
    exact (Stand.replaceScoped (old := .var i d c) h1 trivial (hg hD.2.1) hs).dom hD.2.2

/-- `r` and `r0` are interchangeable. -/
def SameF (r0 r : Expr) : Prop := r0.WF → r.Scoped ∧ ∀ env, Stand .defined env r0 r

/-- Formula without factorization of the same value, with the same gradients. -/
theorem expand (he : e.Scoped) (hw : e.WF) : ∃ e0 : Expr, e0.FactFree ∧
    (∀ Δ env, Stand Δ env e e0) ∧ ∀ n v gradin r, gradin.FactFree → diffT n v e gradin = .ok r →
      ∃ m r0, diffT m v e0 gradin = .ok r0 ∧ SameF r0 r := by
  induction hk : e.tempVars.length generalizing e with
  | zero =>
    have hf : e.FactFree := by
      cases e with
      | fact => simp [Expr.tempVars] at hk
      | _ => exact he
    exact ⟨e, hf, fun _ _ => Stand.refl, fun n v gradin r hg h => ⟨n, r, h, fun _ =>
      ⟨(diffT_factFree hw hf hg h).scoped, fun _ => Stand.refl⟩⟩⟩
  | succ k ih =>
    cases e with
    | fact i d c f g =>
      have hu : ∀ Δ env, _ := fun Δ env => unfold_stand (Δ := Δ) (env := env) he hw
      have hs := (hu .triv fun _ _ => 0).1
      have hlen : (f.replace (.var i d c) g).tempVars.length = k := by
        rw [he.1.tempVars_replace (old := .var i d c) trivial he.2.1]
        simpa [Expr.tempVars] using hk
      obtain ⟨e0, h1, h2, h3⟩ := ih hs ((hu .triv fun _ _ => 0).2.wf hw) hlen
      refine ⟨e0, h1, fun Δ env => (hu Δ env).2.trans (h2 Δ env), fun n v gradin r hg h => ?_⟩
      cases n with
      | zero => cases h
      | succ n =>
        obtain ⟨t, ht, h⟩ := bind_ok h
        cases h
        obtain ⟨m, r0, hm, hr⟩ := h3 n v gradin t hg ht
        refine ⟨m, r0, hm, fun hw0 => ?_⟩
        obtain ⟨a, b⟩ := hr hw0
        exact ⟨a.factorize, fun env => (b env).trans (Stand.factorize a ((b env).wf hw0)
          (fun _ _ _ => trivial) (fun _ _ _ => trivial))⟩
    | _ => simp [Expr.tempVars] at hk

/-- Gradients of factorized formulas come to an end. -/
theorem diffT_fineF (hv : 0 < v.dim) (he : e.Scoped) (hw : e.WF) {gradin : Expr} (hg : gradin.WF)
    (hf : gradin.FactFree) : Fine (fun r => r.WF ∧ r.Scoped) fun n => diffT n v e gradin := by
  induction hk : e.tempVars.length generalizing e with
  | zero =>
    have hff : e.FactFree := by
      cases e with
      | fact => simp [Expr.tempVars] at hk
      | _ => exact he
    obtain ⟨N, x, hx, hN, hP⟩ := diffT_fine hv hw hff gradin hg
    exact ⟨N, x, hx, hN, fun r h =>
      ⟨hP r h, (diffT_factFree hw hff hf (h ▸ hN N (le_refl _))).scoped⟩⟩
  | succ k ih =>
    cases e with
    | fact i d c f g =>
      have hu := unfold_stand (Δ := .triv) (env := fun _ _ => 0) he hw
      have hlen : (f.replace (.var i d c) g).tempVars.length = k := by
        rw [he.1.tempVars_replace (old := .var i d c) trivial he.2.1]
        simpa [Expr.tempVars] using hk
      refine Fine.succ (F := fun n => diffT n v (f.replace (.var i d c) g) gradin >>= fun t =>
        .ok (factorize t g)) (Fine.bind (ih hu.1 (hu.2.wf hw) hlen) fun t ht => Fine.ok ?_) fun _ => rfl
      exact ⟨(Stand.factorize (Δ := .triv) (env := fun _ _ => 0) ht.2 ht.1 (fun _ _ _ => trivial)
        (fun _ _ _ => trivial)).wf ht.1, ht.2.factorize⟩
    | _ => simp [Expr.tempVars] at hk

end

end Verif
