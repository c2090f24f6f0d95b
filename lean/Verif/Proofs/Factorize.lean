import Verif.Spec.Factorize
import Verif.Proofs.DiffDeg

/-!
# Substitution and factorization
-/

namespace Verif

open Spec

section

variable {Δ : Domain} {env : Env} {e f g h f' g' h' old new : Expr}

/-- `r` can stand for `e` at the point `env`. -/
structure Stand (Δ : Domain) (env : Env) (e r : Expr) : Prop where
  dim : r.dim = e.dim
  wf : e.WF → r.WF
  val : r.val env = e.val env
  dom : e.Dom Δ env → r.Dom Δ env

theorem Stand.refl : Stand Δ env e e := ⟨rfl, id, rfl, id⟩

theorem Stand.trans (h1 : Stand Δ env e f) (h2 : Stand Δ env f g) : Stand Δ env e g :=
  ⟨h2.dim.trans h1.dim, h2.wf ∘ h1.wf, h2.val.trans h1.val, h2.dom ∘ h1.dom⟩

theorem Stand.un {o : Un} (h1 : Stand Δ env f f') : Stand Δ env (.un o f) (.un o f') := by
  refine ⟨?_, ?_, ?_, ?_⟩
  · simp only [Expr.dim, h1.dim]
  · rintro ⟨a, b⟩
    exact ⟨h1.wf a, h1.dim ▸ b⟩
  · simp only [Expr.val, h1.dim, h1.val]
  · rintro ⟨a, b⟩
    exact ⟨h1.dom a, h1.dim ▸ h1.val ▸ b⟩

theorem Stand.bin {o : Bin} (h1 : Stand Δ env f f') (h2 : Stand Δ env g g') :
    Stand Δ env (.bin o f g) (.bin o f' g') := by
  refine ⟨?_, ?_, ?_, ?_⟩
  · simp only [Expr.dim, h1.dim, h2.dim]
  · rintro ⟨a, b, c⟩
    exact ⟨h1.wf a, h2.wf b, h1.dim ▸ h2.dim ▸ c⟩
  · simp only [Expr.val, h1.dim, h1.val, h2.dim, h2.val]
  · rintro ⟨a, b, c⟩
    exact ⟨h1.dom a, h2.dom b, h1.dim ▸ h1.val ▸ h2.dim ▸ h2.val ▸ c⟩

theorem Stand.tern {o : Tern} (h1 : Stand Δ env f f') (h2 : Stand Δ env g g') (h3 : Stand Δ env h h') :
    Stand Δ env (.tern o f g h) (.tern o f' g' h') := by
  refine ⟨?_, ?_, ?_, ?_⟩
  · simp only [Expr.dim, h1.dim, h2.dim, h3.dim]
  · rintro ⟨a, b, c, d⟩
    exact ⟨h1.wf a, h2.wf b, h3.wf c, by rw [h1.dim, h2.dim, h3.dim]; exact d⟩
  · simp only [Expr.val, h1.val, h2.val, h3.val]
  · rintro ⟨a, b, c, d⟩
    refine ⟨h1.dom a, h2.dom b, h3.dom c, ?_⟩
    rw [h1.dim, h2.dim, h3.dim, h1.val, h2.val, h3.val]
    exact d

theorem Stand.fact {i c : Int} {d : Nat} (h2 : Stand Δ env g g')
    (h1 : Stand Δ (Function.update env i (g.val env)) f f') :
    Stand Δ env (.fact i d c f g) (.fact i d c f' g') := by
  refine ⟨h1.dim, ?_, ?_, ?_⟩
  · rintro ⟨a, b, c⟩
    exact ⟨h1.wf a, h2.wf b, h2.dim.trans c⟩
  · simp only [Expr.val, h2.val, h1.val]
  · rintro ⟨a, b, c⟩
    refine ⟨a, h2.dom b, ?_⟩
    rw [h2.val]
    exact h1.dom c

theorem Expr.replace_self : e.replace e new = new := by
  cases e <;> simp [Expr.replace]

/-- Substitution in a formula without factorization. -/
theorem Stand.replace (hf : e.FactFree) (h : Stand Δ env old new) : Stand Δ env e (e.replace old new) := by
  induction e with
  | var | zero | int | rat =>
    unfold Expr.replace
    split_ifs with h1
    · rw [h1]; exact h
    · exact Stand.refl
  | un o f ih =>
    unfold Expr.replace
    split_ifs with h1
    · rw [h1]; exact h
    · exact (ih hf).un
  | bin o f g i1 i2 =>
    unfold Expr.replace
    split_ifs with h1
    · rw [h1]; exact h
    · exact (i1 hf.1).bin (i2 hf.2)
  | tern o f g k i1 i2 i3 =>
    unfold Expr.replace
    split_ifs with h1
    · rw [h1]; exact h
    · exact (i1 hf.1).tern (i2 hf.2.1) (i3 hf.2.2)
  | fact => exact absurd hf id

/-! ## Variables -/

theorem Expr.inds_eq (e : Expr) : e.inds = e.vars.map Prod.fst := by
  induction e with
  | var | zero | int | rat => rfl
  | un o f ih => exact ih
  | bin o f g i1 i2 => simp only [Expr.inds, Expr.vars, List.map_append, i1, i2]
  | tern o f g k i1 i2 i3 => simp only [Expr.inds, Expr.vars, List.map_append, i1, i2, i3]
  | fact i d c f g i1 i2 => simp only [Expr.inds, Expr.vars, List.map_append, i1, i2]

theorem Expr.mem_inds {i : Int} : i ∈ e.inds ↔ ∃ t ∈ e.vars, t.1 = i := by
  rw [inds_eq]; exact List.mem_map

theorem Expr.vars_replace {t : Int × Nat × Int} (h : t ∈ (e.replace old new).vars) :
    t ∈ e.vars ∨ t ∈ new.vars := by
  induction e with
  | var | zero | int | rat =>
    unfold Expr.replace at h; split_ifs at h
    · exact .inr h
    · exact .inl h
  | un o f ih =>
    unfold Expr.replace at h; split_ifs at h
    · exact .inr h
    · exact ih h
  | bin o f g i1 i2 =>
    unfold Expr.replace at h; split_ifs at h
    · exact .inr h
    · simp only [Expr.vars, List.mem_append] at h ⊢
      rcases h with h | h
      · have := i1 h; tauto
      · have := i2 h; tauto
  | tern o f g k i1 i2 i3 =>
    unfold Expr.replace at h; split_ifs at h
    · exact .inr h
    · simp only [Expr.vars, List.mem_append] at h ⊢
      rcases h with h | h | h
      · have := i1 h; tauto
      · have := i2 h; tauto
      · have := i3 h; tauto
  | fact i d c f g i1 i2 =>
    unfold Expr.replace at h; split_ifs at h
    · exact .inr h
    · simp only [Expr.vars, List.mem_append] at h ⊢
      rcases h with h | h
      · have := i1 h; tauto
      · have := i2 h; tauto

theorem Expr.vars_replace' {t : Int × Nat × Int} (h : t ∈ e.vars) :
    t ∈ (e.replace old new).vars ∨ t ∈ old.vars := by
  induction e with
  | var | zero | int | rat =>
    unfold Expr.replace; split_ifs with h1
    · rw [← h1]; exact .inr h
    · exact .inl h
  | un o f ih =>
    unfold Expr.replace; split_ifs with h1
    · rw [← h1]; exact .inr h
    · exact ih h
  | bin o f g i1 i2 =>
    unfold Expr.replace; split_ifs with h1
    · rw [← h1]; exact .inr h
    · simp only [Expr.vars, List.mem_append] at h ⊢
      rcases h with h | h
      · have := i1 h; tauto
      · have := i2 h; tauto
  | tern o f g k i1 i2 i3 =>
    unfold Expr.replace; split_ifs with h1
    · rw [← h1]; exact .inr h
    · simp only [Expr.vars, List.mem_append] at h ⊢
      rcases h with h | h | h
      · have := i1 h; tauto
      · have := i2 h; tauto
      · have := i3 h; tauto
  | fact i d c f g i1 i2 =>
    unfold Expr.replace; split_ifs with h1
    · rw [← h1]; exact .inr h
    · simp only [Expr.vars, List.mem_append] at h ⊢
      rcases h with h | h
      · have := i1 h; tauto
      · have := i2 h; tauto

/-- If `old` occurs, then so do its variables, and the result contains those of `new`; otherwise, nothing
changes. -/
theorem Expr.count_pos (h : 0 < e.count old) : (∀ t ∈ old.vars, t ∈ e.vars) ∧
    ∀ t ∈ new.vars, t ∈ (e.replace old new).vars := by
  induction e with
  | var | zero | int | rat =>
    unfold Expr.count at h; unfold Expr.replace
    split_ifs at h ⊢ with h1
    · rw [← h1]; exact ⟨fun t h => h, fun t h => h⟩
    · omega
  | un o f ih =>
    unfold Expr.count at h; unfold Expr.replace
    split_ifs at h ⊢ with h1
    · rw [← h1]; exact ⟨fun t h => h, fun t h => h⟩
    · exact ih h
  | bin o f g i1 i2 =>
    unfold Expr.count at h; unfold Expr.replace
    split_ifs at h ⊢ with h1
    · rw [← h1]; exact ⟨fun t h => h, fun t h => h⟩
    · simp only [Expr.vars, List.mem_append]
      rcases Nat.eq_zero_or_pos (f.count old) with h0 | h0
      · have := i2 (by omega)
        exact ⟨fun t h => .inr (this.1 t h), fun t h => .inr (this.2 t h)⟩
      · have := i1 h0
        exact ⟨fun t h => .inl (this.1 t h), fun t h => .inl (this.2 t h)⟩
  | tern o f g k i1 i2 i3 =>
    unfold Expr.count at h; unfold Expr.replace
    split_ifs at h ⊢ with h1
    · rw [← h1]; exact ⟨fun t h => h, fun t h => h⟩
    · simp only [Expr.vars, List.mem_append]
      rcases Nat.eq_zero_or_pos (f.count old) with h0 | h0
      · rcases Nat.eq_zero_or_pos (g.count old) with h2 | h2
        · have := i3 (by omega)
          exact ⟨fun t h => .inr (.inr (this.1 t h)), fun t h => .inr (.inr (this.2 t h))⟩
        · have := i2 h2
          exact ⟨fun t h => .inr (.inl (this.1 t h)), fun t h => .inr (.inl (this.2 t h))⟩
      · have := i1 h0
        exact ⟨fun t h => .inl (this.1 t h), fun t h => .inl (this.2 t h)⟩
  | fact i d c f g i1 i2 =>
    unfold Expr.count at h; unfold Expr.replace
    split_ifs at h ⊢ with h1
    · rw [← h1]; exact ⟨fun t h => h, fun t h => h⟩
    · simp only [Expr.vars, List.mem_append]
      rcases Nat.eq_zero_or_pos (f.count old) with h0 | h0
      · have := i2 (by omega)
        exact ⟨fun t h => .inr (this.1 t h), fun t h => .inr (this.2 t h)⟩
      · have := i1 h0
        exact ⟨fun t h => .inl (this.1 t h), fun t h => .inl (this.2 t h)⟩

theorem Expr.count_zero (h : e.count old = 0) : e.replace old new = e := by
  induction e with
  | var | zero | int | rat =>
    unfold Expr.count at h; unfold Expr.replace
    split_ifs at h ⊢ with h1
    rfl
  | un o f ih =>
    unfold Expr.count at h; unfold Expr.replace
    split_ifs at h ⊢ with h1
    rw [ih h]
  | bin o f g i1 i2 =>
    unfold Expr.count at h; unfold Expr.replace
    split_ifs at h ⊢ with h1
    rw [i1 (by omega), i2 (by omega)]
  | tern o f g k i1 i2 i3 =>
    unfold Expr.count at h; unfold Expr.replace
    split_ifs at h ⊢ with h1
    rw [i1 (by omega), i2 (by omega), i3 (by omega)]
  | fact i d c f g i1 i2 =>
    unfold Expr.count at h; unfold Expr.replace
    split_ifs at h ⊢ with h1
    rw [i1 (by omega), i2 (by omega)]

/-- A formula which occurs is not larger than the whole. -/
theorem Expr.count_factFree (hf : e.FactFree) (h : 0 < e.count old) : old.FactFree := by
  induction e with
  | var | zero | int | rat =>
    unfold Expr.count at h
    split_ifs at h with h1
    · exact h1 ▸ hf
    · omega
  | un o f ih =>
    unfold Expr.count at h
    split_ifs at h with h1
    · exact h1 ▸ hf
    · exact ih hf h
  | bin o f g i1 i2 =>
    unfold Expr.count at h
    split_ifs at h with h1
    · exact h1 ▸ hf
    · rcases Nat.eq_zero_or_pos (f.count old) with h0 | h0
      · exact i2 hf.2 (by omega)
      · exact i1 hf.1 h0
  | tern o f g k i1 i2 i3 =>
    unfold Expr.count at h
    split_ifs at h with h1
    · exact h1 ▸ hf
    · rcases Nat.eq_zero_or_pos (f.count old) with h0 | h0
      · rcases Nat.eq_zero_or_pos (g.count old) with h2 | h2
        · exact i3 hf.2.2 (by omega)
        · exact i2 hf.2.1 h2
      · exact i1 hf.1 h0
  | fact => exact absurd hf id

/-- A formula which occurs can be evaluated where the whole formula can. -/
theorem Expr.count_dom (hf : e.FactFree) (h : 0 < e.count old) :
    (e.Dom Δ env → old.Dom Δ env) ∧ (e.WF → old.WF) := by
  induction e with
  | var | zero | int | rat =>
    unfold Expr.count at h
    split_ifs at h with h1
    · exact h1 ▸ ⟨id, id⟩
    · omega
  | un o f ih =>
    unfold Expr.count at h
    split_ifs at h with h1
    · exact h1 ▸ ⟨id, id⟩
    · exact ⟨fun a => (ih hf h).1 a.1, fun a => (ih hf h).2 a.1⟩
  | bin o f g i1 i2 =>
    unfold Expr.count at h
    split_ifs at h with h1
    · exact h1 ▸ ⟨id, id⟩
    · rcases Nat.eq_zero_or_pos (f.count old) with h0 | h0
      · have := i2 hf.2 (by omega)
        exact ⟨fun a => this.1 a.2.1, fun a => this.2 a.2.1⟩
      · have := i1 hf.1 h0
        exact ⟨fun a => this.1 a.1, fun a => this.2 a.1⟩
  | tern o f g k i1 i2 i3 =>
    unfold Expr.count at h
    split_ifs at h with h1
    · exact h1 ▸ ⟨id, id⟩
    · rcases Nat.eq_zero_or_pos (f.count old) with h0 | h0
      · rcases Nat.eq_zero_or_pos (g.count old) with h2 | h2
        · have := i3 hf.2.2 (by omega)
          exact ⟨fun a => this.1 a.2.2.1, fun a => this.2 a.2.2.1⟩
        · have := i2 hf.2.1 h2
          exact ⟨fun a => this.1 a.2.1, fun a => this.2 a.2.1⟩
      · have := i1 hf.1 h0
        exact ⟨fun a => this.1 a.1, fun a => this.2 a.1⟩
  | fact => exact absurd hf id

/-! ## Scoped formulas -/

/-- The predicate on formulas that are not factorizations. -/
theorem Expr.scoped_cases (e : Expr) : (∃ i d c f g, e = .fact i d c f g) ∨
    (e.Scoped = e.FactFree ∧ e.tempVars = []) := by
  cases e with
  | fact i d c f g => exact .inl ⟨i, d, c, f, g, rfl⟩
  | _ => exact .inr ⟨rfl, rfl⟩

theorem Expr.FactFree.scoped (h : e.FactFree) : e.Scoped := by
  cases e <;> first | exact h | exact absurd h id

theorem Expr.FactFree.tempVars (h : e.FactFree) : e.tempVars = [] := by
  cases e <;> first | rfl | exact absurd h id

theorem Expr.FactFree.replace (h : e.FactFree) (hn : new.FactFree) : (e.replace old new).FactFree := by
  induction e with
  | var | zero | int | rat => unfold Expr.replace; split_ifs <;> assumption
  | un o f ih => unfold Expr.replace; split_ifs; exacts [hn, ih h]
  | bin o f g i1 i2 => unfold Expr.replace; split_ifs; exacts [hn, ⟨i1 h.1, i2 h.2⟩]
  | tern o f g k i1 i2 i3 =>
    unfold Expr.replace; split_ifs; exacts [hn, ⟨i1 h.1, i2 h.2.1, i3 h.2.2⟩]
  | fact => exact absurd h id

theorem fact_ne {i c : Int} {d : Nat} (h : old.FactFree) : Expr.fact i d c f g ≠ old :=
  fun h1 => by rw [← h1] at h; exact h

theorem Expr.replace_fact {i c : Int} {d : Nat} (h : old.FactFree) :
    (Expr.fact i d c f g).replace old new = .fact i d c (f.replace old new) (g.replace old new) := by
  rw [Expr.replace, if_neg (fact_ne h)]

theorem Expr.count_fact {i c : Int} {d : Nat} (h : old.FactFree) :
    (Expr.fact i d c f g).count old = f.count old + g.count old := by
  rw [Expr.count, if_neg (fact_ne h)]

theorem Expr.Scoped.tempVars_replace (he : e.Scoped) (ho : old.FactFree) (hn : new.FactFree) :
    (e.replace old new).tempVars = e.tempVars := by
  induction e with
  | fact i d c f g i1 i2 =>
    rw [replace_fact ho]
    simp only [Expr.tempVars, i1 he.1]
  | _ => rw [Expr.FactFree.tempVars (Expr.FactFree.replace he hn), Expr.FactFree.tempVars he]

/-- Variables of a scoped formula that have the index of a temporary variable. -/
theorem Expr.Scoped.uses (he : e.Scoped) {t s : Int × Nat × Int} (ht : t ∈ e.vars)
    (hs : s ∈ e.tempVars) (h : t.1 = s.1) : t = s := by
  induction e with
  | fact i d c f g i1 i2 =>
    obtain ⟨h1, h2, h3, h4, h5, h6⟩ := he
    simp only [Expr.tempVars, List.mem_append, List.mem_singleton] at hs
    simp only [Expr.vars, List.mem_append] at ht
    rcases hs with hs | rfl
    · rcases ht with ht | ht
      · exact i1 h1 ht hs
      · exact absurd (mem_inds.mpr ⟨t, ht, h⟩) (h5 s hs).2
    · rcases ht with ht | ht
      · exact h4 t ht h
      · exact absurd (mem_inds.mpr ⟨t, ht, h⟩) h6
  | _ =>
    rw [Expr.FactFree.tempVars he] at hs
    cases hs

/-- Temporary variables are used. -/
theorem Expr.Scoped.used (he : e.Scoped) {s : Int × Nat × Int} (hs : s ∈ e.tempVars) : s.1 ∈ e.inds := by
  induction e with
  | fact i d c f g i1 i2 =>
    obtain ⟨h1, h2, h3, h4, h5, h6⟩ := he
    simp only [Expr.tempVars, List.mem_append, List.mem_singleton] at hs
    simp only [Expr.inds, List.mem_append]
    rcases hs with hs | rfl
    · exact .inl (i1 h1 hs)
    · exact .inl h3
  | _ =>
    rw [Expr.FactFree.tempVars he] at hs
    cases hs

theorem Off.update_self (env : Env) (i : Int) (x : Vec) : Off i env (Function.update env i x) :=
  fun _ hj => (Function.update_of_ne hj _ _).symm

theorem Expr.val_update {i : Int} (h : i ∉ e.inds) (x : Vec) :
    e.val (Function.update env i x) = e.val env :=
  (e.val_free (deg_inds h) (Off.update_self env i x)).symm

theorem Expr.dom_update {i : Int} (h : i ∉ e.inds) (x : Vec) :
    e.Dom Δ (Function.update env i x) ↔ e.Dom Δ env :=
  ⟨e.dom_free (deg_inds h) (Off.update_self env i x).symm, e.dom_free (deg_inds h) (Off.update_self env i x)⟩

theorem Stand.update (h : Stand Δ env old new) {i : Int} (h1 : i ∉ old.inds) (h2 : i ∉ new.inds) (x : Vec) :
    Stand Δ (Function.update env i x) old new :=
  ⟨h.dim, h.wf, by rw [Expr.val_update h1, Expr.val_update h2, h.val],
    by rw [Expr.dom_update h1, Expr.dom_update h2]; exact h.dom⟩

/-- Substitution in a scoped formula, when its temporary variables do not occur in the two formulas. -/
theorem Stand.replaceScoped (he : e.Scoped) (ho : old.FactFree) (h : Stand Δ env old new)
    (hs : ∀ s ∈ e.tempVars, s.1 ∉ old.inds ∧ s.1 ∉ new.inds) : Stand Δ env e (e.replace old new) := by
  induction e generalizing env with
  | fact i d c f g i1 i2 =>
    rw [Expr.replace_fact ho]
    have h0 := hs (i, d, c) (by simp [Expr.tempVars])
    refine Stand.fact (Stand.replace he.2.1 h) (i1 he.1 (h.update h0.1 h0.2 _) fun s h => hs s ?_)
    simp [Expr.tempVars, h]
  | _ => exact Stand.replace he h

/-- A formula which occurs in a scoped formula, without its temporary variables. -/
theorem Expr.Scoped.count_dom (he : e.Scoped) (ho : old.FactFree)
    (hs : ∀ s ∈ e.tempVars, s.1 ∉ old.inds) (h : 0 < e.count old) :
    e.Dom Δ env → old.Dom Δ env := by
  induction e generalizing env with
  | fact i d c f g i1 i2 =>
    rw [count_fact ho] at h
    intro hd
    rcases Nat.eq_zero_or_pos (f.count old) with h0 | h0
    · exact (Expr.count_dom he.2.1 (by omega)).1 hd.2.1
    · have := i1 he.1 (fun s h => hs s (by simp [Expr.tempVars, h])) h0 hd.2.2
      rwa [dom_update (hs (i, d, c) (by simp [Expr.tempVars]))] at this
  | _ => exact (Expr.count_dom he h).1

theorem Expr.Scoped.count_wf (he : e.Scoped) (ho : old.FactFree) (h : 0 < e.count old) :
    e.WF → old.WF := by
  induction e with
  | fact i d c f g i1 i2 =>
    rw [count_fact ho] at h
    intro hd
    rcases Nat.eq_zero_or_pos (f.count old) with h0 | h0
    · exact (Expr.count_dom (Δ := .triv) (env := fun _ _ => 0) he.2.1 (by omega)).2 hd.2.1
    · exact i1 he.1 h0 hd.1
  | _ => exact (Expr.count_dom (Δ := .triv) (env := fun _ _ => 0) he h).2

/-- Formulas with factorizations occur at most once in a scoped formula. -/
theorem Expr.Scoped.count_le (he : e.Scoped) (ho : ¬ old.FactFree) : e.count old ≤ 1 := by
  have hz : ∀ {a : Expr}, a.FactFree → a.count old = 0 := fun ha => by
    by_contra h
    exact ho (count_factFree ha (by omega))
  induction e with
  | fact i d c f g i1 i2 =>
    unfold Expr.count
    split_ifs
    · exact le_refl _
    · rw [hz he.2.1]
      exact i1 he.1
  | _ => rw [hz he]; exact Nat.zero_le _

/-! ## Factorization -/

theorem cst_val (hw : e.WF) (env : Env) : cst e.dim (e.val env) = e.val env := by
  funext k
  unfold cst
  split_ifs with h
  · exact e.val_const hw h env 0 k
  · rfl

/-- The temporary variable stands for its definition. -/
theorem Stand.alias {i c : Int} (hw : g.WF) (hi : i ∉ g.inds) (hv : Δ.var i g.dim c) :
    Stand Δ (Function.update env i (g.val env)) g (.var i g.dim c) := by
  refine ⟨rfl, fun h => h.pos, ?_, fun _ => hv⟩
  rw [Expr.val_update hi]
  simp only [Expr.val, Function.update_self]
  exact cst_val hw env

variable {i : Int}

/-- Factorization at the top. -/
theorem Stand.wrap (he : e.Scoped) (hw : e.WF) (hg : g.FactFree) (hc : 0 < e.count g) (hi : i ∉ e.inds)
    (hs : ∀ s ∈ e.tempVars, s.1 ∉ g.inds) (hv : Δ.var i g.dim 3) (hf : Δ.fact i g.dim 3) :
    Stand Δ env e (.fact i g.dim 3 (e.replace g (.var i g.dim 3)) g) := by
  have hgw := he.count_wf hg hc hw
  have hgi : i ∉ g.inds := fun h => by
    obtain ⟨t, ht, h⟩ := Expr.mem_inds.mp h
    exact hi (Expr.mem_inds.mpr ⟨t, (Expr.count_pos (new := g) hc).1 t ht, h⟩)
  have h1 : Stand Δ (Function.update env i (g.val env)) e (e.replace g (.var i g.dim 3)) := by
    refine Stand.replaceScoped he hg (Stand.alias hgw hgi hv) fun s h => ⟨hs s h, ?_⟩
    simp only [Expr.inds, List.mem_singleton]
    exact fun h0 => hi (h0 ▸ he.used h)
  refine ⟨h1.dim, fun h => ⟨h1.wf h, hgw, rfl⟩, ?_, fun h => ⟨hf, he.count_dom hg hs hc h, ?_⟩⟩
  · simp only [Expr.val, h1.val, Expr.val_update hi]
  · exact h1.dom ((Expr.dom_update hi _).mpr h)

theorem any_tempVars : e.tempVars.any (fun v => decide (v ∈ g.vars)) = true ↔
    ∃ s ∈ e.tempVars, s ∈ g.vars := by
  simp [List.any_eq_true]

theorem factorize_fact {j c' : Int} {d' : Nat} {d : Nat} {c : Int} :
    factorize_ g i d c (.fact j d' c' f h) =
      if (Expr.fact j d' c' f h).tempVars.any (fun v => decide (v ∈ g.vars)) = true then
      .fact j d' c' (factorize_ g i d c f) h
    else .fact i d c (.fact j d' c' f h) g := by
  rw [factorize_]

theorem factorize_else {d : Nat} {c : Int}
    (he : e.tempVars.any (fun v => decide (v ∈ g.vars)) = false) :
    factorize_ g i d c e = .fact i d c e g := by
  cases e with
  | fact j d' c' f h => rw [factorize_fact, if_neg (by simp [he])]
  | _ => rfl

theorem vars_inds {t : Int × Nat × Int} (h : t ∈ e.vars) : t.1 ∈ e.inds := Expr.mem_inds.mpr ⟨t, h, rfl⟩

theorem vars_inds' {t : Int × Nat × Int} {j : Int} (h : t ∈ e.vars) (hj : t.1 = j) : j ∈ e.inds :=
  Expr.mem_inds.mpr ⟨t, h, hj⟩

/-- No temporary variable in `g`. -/
theorem Expr.Scoped.notin (he : e.Scoped) (hc : 0 < e.count g)
    (h : ¬ ∃ s ∈ e.tempVars, s ∈ g.vars) : ∀ s ∈ e.tempVars, s.1 ∉ g.inds := by
  intro s hs hi
  obtain ⟨t, ht, hts⟩ := mem_inds.mp hi
  have := he.uses ((count_pos (new := g) hc).1 t ht) hs hts
  exact h ⟨s, hs, this ▸ ht⟩

/-- If `g` uses a temporary variable of the factorization, it does not occur in its definition. -/
theorem Expr.Scoped.count_def {j c' : Int} {d' : Nat} (he : (Expr.fact j d' c' f h).Scoped)
    (hs : ∃ s ∈ (Expr.fact j d' c' f h).tempVars, s ∈ g.vars) : h.count g = 0 := by
  by_contra h0
  obtain ⟨s, hs, hsg⟩ := hs
  have h1 := vars_inds ((count_pos (new := g) (e := h) (by omega)).1 s hsg)
  simp only [Expr.tempVars, List.mem_append, List.mem_singleton] at hs
  rcases hs with hs | rfl
  · exact (he.2.2.2.2.1 s hs).2 h1
  · exact he.2.2.2.2.2 h1

/-- `Factorize_` on a scoped formula. -/
theorem Stand.factorize_ (he : e.Scoped) (hw : e.WF) (hg : g.FactFree) (hc : 0 < e.count g)
    (hi : i ∉ e.inds) (hv : Δ.var i g.dim 3) (hf : Δ.fact i g.dim 3) :
    Stand Δ env e (factorize_ g i g.dim 3 (e.replace g (.var i g.dim 3))) := by
  induction e generalizing env with
  | fact j d' c' f h i1 i2 =>
    have ht := he.tempVars_replace (new := .var i g.dim 3) hg trivial
    by_cases hs : ∃ s ∈ (Expr.fact j d' c' f h).tempVars, s ∈ g.vars
    · have h0 := he.count_def hs
      rw [Expr.replace_fact hg] at ht ⊢
      rw [factorize_fact, if_pos (by rw [ht]; exact any_tempVars.mpr hs), Expr.count_zero h0]
      rw [Expr.count_fact hg, h0] at hc
      simp only [Expr.inds, List.mem_append, not_or] at hi
      exact Stand.fact Stand.refl (i1 he.1 hw.1 (by omega) hi.1)
    · rw [factorize_else (by rw [ht]; exact Bool.eq_false_iff.mpr fun h => hs (any_tempVars.mp h))]
      exact Stand.wrap he hw hg hc hi (he.notin hc hs) hv hf
  | _ =>
    rw [factorize_else (by rw [Expr.FactFree.tempVars (Expr.FactFree.replace (new := .var i g.dim 3) he trivial)]; rfl)]
    exact Stand.wrap he hw hg hc hi (by rw [Expr.FactFree.tempVars he]; simp) hv hf

/-- Substitution keeps scopes. -/
theorem Expr.Scoped.replace (he : e.Scoped) (ho : old.FactFree) (hn : new.FactFree)
    (hs : ∀ s ∈ e.tempVars, s.1 ∉ old.inds ∧ s.1 ∉ new.inds) : (e.replace old new).Scoped := by
  induction e with
  | fact i d c f g i1 i2 =>
    rw [replace_fact ho]
    have hs0 := hs (i, d, c) (by simp [Expr.tempVars])
    have hsf : ∀ s ∈ f.tempVars, s.1 ∉ old.inds ∧ s.1 ∉ new.inds := fun s h =>
      hs s (by simp [Expr.tempVars, h])
    obtain ⟨h1, h2, h3, h4, h5, h6⟩ := he
    have hg' : ∀ j, j ∉ g.inds → j ∉ new.inds → j ∉ (g.replace old new).inds := by
      intro j a b hj
      obtain ⟨t, ht, rfl⟩ := mem_inds.mp hj
      rcases vars_replace ht with h | h
      · exact a (vars_inds h)
      · exact b (vars_inds h)
    refine ⟨i1 h1 hsf, h2.replace hn, ?_, ?_, ?_, hg' i h6 hs0.2⟩
    · obtain ⟨t, ht, hti⟩ := mem_inds.mp h3
      rcases vars_replace' (old := old) (new := new) ht with h | h
      · exact vars_inds' h hti
      · exact absurd (vars_inds' h hti) hs0.1
    · intro t ht hti
      rcases vars_replace ht with h | h
      · exact h4 t h hti
      · exact absurd (vars_inds' h hti) hs0.2
    · rw [h1.tempVars_replace ho hn]
      exact fun s h => ⟨(h5 s h).1, hg' _ (h5 s h).2 (hsf s h).2⟩
  | _ => exact (Expr.FactFree.replace he hn).scoped

theorem factorize_vars {d : Nat} {c : Int} {t : Int × Nat × Int} :
    t ∈ (factorize_ g i d c e).vars ↔ t ∈ e.vars ∨ t ∈ g.vars := by
  induction e with
  | fact j d' c' f h i1 i2 =>
    rw [factorize_fact]
    split_ifs
    · simp only [Expr.vars, List.mem_append, i1]; tauto
    · simp only [Expr.vars, List.mem_append]
  | _ => simp only [factorize_, Expr.vars, List.mem_append]

theorem factorize_temp {d : Nat} {c : Int} {t : Int × Nat × Int} :
    t ∈ (factorize_ g i d c e).tempVars ↔ t ∈ e.tempVars ∨ t = (i, d, c) := by
  induction e with
  | fact j d' c' f h i1 i2 =>
    rw [factorize_fact]
    split_ifs
    · simp only [Expr.tempVars, List.mem_append, i1, List.mem_singleton]; tauto
    · simp only [Expr.tempVars, List.mem_append, List.mem_singleton]
  | _ => simp only [factorize_, Expr.tempVars, List.mem_append, List.mem_singleton]

/-- Factorization at the top. -/
theorem Expr.Scoped.wrap (he : e.Scoped) (hg : g.FactFree) (hc : 0 < e.count g) (hi : i ∉ e.inds)
    (hs : ∀ s ∈ e.tempVars, s.1 ∉ g.inds) :
    (Expr.fact i g.dim 3 (e.replace g (.var i g.dim 3)) g).Scoped := by
  have hi' : ∀ s ∈ e.tempVars, s.1 ≠ i := fun s h h0 => hi (h0 ▸ he.used h)
  refine ⟨he.replace hg trivial fun s h => ⟨hs s h, ?_⟩, hg, ?_, ?_, ?_, ?_⟩
  · simp only [Expr.inds, List.mem_singleton]
    exact hi' s h
  · exact vars_inds ((Expr.count_pos (new := .var i g.dim 3) hc).2 (i, g.dim, 3) (by simp [Expr.vars]))
  · intro t ht hti
    rcases Expr.vars_replace ht with h | h
    · exact absurd (vars_inds' h hti) hi
    · simpa [Expr.vars] using h
  · rw [he.tempVars_replace (new := .var i g.dim 3) hg trivial]
    exact fun s h => ⟨hi' s h, hs s h⟩
  · intro h
    obtain ⟨t, ht, rfl⟩ := mem_inds.mp h
    exact hi (vars_inds ((count_pos (new := g) hc).1 t ht))

theorem Expr.Scoped.factorize_ (he : e.Scoped) (hg : g.FactFree) (hc : 0 < e.count g)
    (hi : i ∉ e.inds) : (Verif.factorize_ g i g.dim 3 (e.replace g (.var i g.dim 3))).Scoped := by
  induction e with
  | fact j d' c' f h i1 i2 =>
    have ht := he.tempVars_replace (new := .var i g.dim 3) hg trivial
    by_cases hs : ∃ s ∈ (Expr.fact j d' c' f h).tempVars, s ∈ g.vars
    · have h0 := he.count_def hs
      rw [Expr.replace_fact hg] at ht ⊢
      rw [factorize_fact, if_pos (by rw [ht]; exact any_tempVars.mpr hs), Expr.count_zero h0]
      rw [Expr.count_fact hg, h0] at hc
      simp only [Expr.inds, List.mem_append, not_or] at hi
      have hc' : 0 < f.count g := by omega
      obtain ⟨h1, h2, h3, h4, h5, h6⟩ := he
      have hgf := (Expr.count_pos (new := g) hc').1
      refine ⟨i1 h1 hc' hi.1, h2, ?_, ?_, ?_, h6⟩
      · obtain ⟨t, ht, hti⟩ := mem_inds.mp h3
        refine vars_inds' (factorize_vars.mpr ?_) hti
        exact vars_replace' ht
      · intro t ht hti
        rcases factorize_vars.mp ht with h | h
        · rcases Expr.vars_replace h with h | h
          · exact h4 t h hti
          · simp only [Expr.vars, List.mem_singleton] at h
            subst h
            exact absurd (show i ∈ f.inds from (show i = j from hti) ▸ h3) hi.1
        · exact h4 t (hgf t h) hti
      · intro s h
        rcases factorize_temp.mp h with h | rfl
        · rw [h1.tempVars_replace (new := .var i g.dim 3) hg trivial] at h
          exact h5 s h
        · exact ⟨fun h => hi.1 (show i ∈ f.inds from (show i = j from h) ▸ h3), hi.2⟩
    · rw [factorize_else (by rw [ht]; exact Bool.eq_false_iff.mpr fun h => hs (any_tempVars.mp h))]
      exact Expr.Scoped.wrap he hg hc hi (he.notin hc hs)
  | _ =>
    rw [factorize_else (by rw [Expr.FactFree.tempVars (Expr.FactFree.replace (new := .var i g.dim 3) he trivial)]; rfl)]
    exact Expr.Scoped.wrap he hg hc hi (by rw [Expr.FactFree.tempVars he]; simp)

theorem newInd_fresh : newInd e ∉ e.inds ∧ newInd e < 0 := by
  unfold newInd
  cases hm : e.inds.min? with
  | none =>
    rw [List.min?_eq_none_iff.mp hm]
    simp
  | some m =>
    have hle := (List.min?_eq_some_iff.mp hm).2
    simp only
    constructor
    · intro h
      have := hle _ h
      split_ifs at h this <;> omega
    · split_ifs <;> omega

/-- `Factorize` on a scoped formula. -/
theorem Stand.factorize (he : e.Scoped) (hw : e.WF) (hv : ∀ i d, i < 0 → Δ.var i d 3)
    (hf : ∀ i d, i < 0 → Δ.fact i d 3) : Stand Δ env e (Verif.factorize e g) := by
  unfold Verif.factorize
  simp only
  split_ifs with h1 h2
  · exact Stand.refl
  · by_cases hg : g.FactFree
    · exact Stand.factorize_ he hw hg (by omega) newInd_fresh.1 (hv _ _ newInd_fresh.2)
        (hf _ _ newInd_fresh.2)
    · have := he.count_le hg
      omega
  · exact Stand.refl

theorem Expr.Scoped.factorize (he : e.Scoped) : (Verif.factorize e g).Scoped := by
  unfold Verif.factorize
  simp only
  split_ifs with h1 h2
  · exact he
  · by_cases hg : g.FactFree
    · exact he.factorize_ hg (by omega) newInd_fresh.1
    · have := he.count_le hg
      omega
  · exact he

/-! ## Automatic factorization -/

/-- Number of operations and rational constants. -/
def Expr.ops : Expr → Nat
  | .var _ _ _ | .zero _ | .int _ => 0
  | .rat _ _ => 1
  | .un _ f => f.ops + 1
  | .bin _ f g => f.ops + g.ops + 1
  | .tern _ f g h => f.ops + g.ops + h.ops + 1
  | .fact _ _ _ f g => f.ops + g.ops

theorem Expr.ops_replace {d : Nat} {c : Int} :
    (e.replace old (.var i d c)).ops + e.count old * old.ops = e.ops := by
  induction e with
  | var | zero | int | rat =>
    unfold Expr.replace Expr.count
    split_ifs with h
    · rw [← h]; simp [Expr.ops]
    · simp
  | un o f ih =>
    unfold Expr.replace Expr.count
    split_ifs with h
    · rw [← h]; simp [Expr.ops]
    · simp only [Expr.ops]; omega
  | bin o f g i1 i2 =>
    unfold Expr.replace Expr.count
    split_ifs with h
    · rw [← h]; simp [Expr.ops]
    · simp only [Expr.ops, Nat.add_mul]; omega
  | tern o f g k i1 i2 i3 =>
    unfold Expr.replace Expr.count
    split_ifs with h
    · rw [← h]; simp [Expr.ops]
    · simp only [Expr.ops, Nat.add_mul]; omega
  | fact j d' c' f g i1 i2 =>
    unfold Expr.replace Expr.count
    split_ifs with h
    · rw [← h]; simp [Expr.ops]
    · simp only [Expr.ops, Nat.add_mul]; omega

theorem factorize_ops {d : Nat} {c : Int} : (factorize_ g i d c e).ops = e.ops + g.ops := by
  induction e with
  | fact j d' c' f h i1 i2 =>
    rw [factorize_fact]
    split_ifs
    · simp only [Expr.ops, i1]; omega
    · simp only [Expr.ops]
  | _ => simp only [factorize_, Expr.ops]

theorem Expr.ops_pos (h : g.isAtom = false) (hf : g.FactFree) : 0 < g.ops := by
  cases g <;> simp_all [Expr.isAtom, Expr.ops, Expr.FactFree]

theorem factorize_lt (he : e.Scoped) (h : factorize e g ≠ e) : (factorize e g).ops < e.ops := by
  unfold factorize at h ⊢
  simp only at h ⊢
  split_ifs at h ⊢ with h1 h2
  · exact absurd rfl h
  · by_cases hg : g.FactFree
    · rw [factorize_ops]
      have h3 := Expr.ops_replace (e := e) (old := g) (i := newInd e) (d := g.dim) (c := 3)
      have h4 := Expr.ops_pos (by simpa using h1) hg
      have h5 := Nat.mul_le_mul_right g.ops (show 2 ≤ e.count g from h2)
      omega
    · have := he.count_le hg
      omega
  · exact absurd rfl h

theorem recSearch_cases (e t : Expr) : recSearch e t = e ∨ ∃ g, recSearch e t = factorize e g := by
  induction t with
  | var | zero | int | rat => exact .inr ⟨_, rfl⟩
  | un o f ih =>
    rw [recSearch]
    split_ifs
    · exact .inr ⟨_, rfl⟩
    · exact ih
  | bin o f g i1 i2 =>
    rw [recSearch]
    simp only
    split_ifs
    · exact .inr ⟨_, rfl⟩
    · exact i1
    · exact i2
  | tern o f g k i1 i2 i3 =>
    rw [recSearch]
    simp only
    split_ifs
    · exact .inr ⟨_, rfl⟩
    · exact i1
    · exact i2
    · exact i3
  | fact j d c f g i1 i2 =>
    rw [recSearch]
    simp only
    split_ifs
    · exact .inr ⟨_, rfl⟩
    · exact i1
    · exact i2

theorem recSearch_stand (he : e.Scoped) (hw : e.WF) (hv : ∀ i d, i < 0 → Δ.var i d 3)
    (hf : ∀ i d, i < 0 → Δ.fact i d 3) : Stand Δ env e (recSearch e f) ∧ (recSearch e f).Scoped ∧
      (recSearch e f ≠ e → (recSearch e f).ops < e.ops) := by
  rcases recSearch_cases e f with h | ⟨g, h⟩
  · rw [h]; exact ⟨Stand.refl, he, fun h => absurd rfl h⟩
  · rw [h]; exact ⟨Stand.factorize he hw hv hf, he.factorize, factorize_lt he⟩

theorem autoFactorize_stand {n : Nat} (he : e.Scoped) (hw : e.WF) (hv : ∀ i d, i < 0 → Δ.var i d 3)
    (hf : ∀ i d, i < 0 → Δ.fact i d 3) (h : autoFactorize n e = .ok f) : Stand Δ env e f ∧ f.Scoped := by
  induction n generalizing e with
  | zero => cases h
  | succ n ih =>
    rw [autoFactorize] at h
    obtain ⟨h1, h2, -⟩ := recSearch_stand (f := e) (env := env) he hw hv hf
    split_ifs at h with h0
    · have := ih h2 (h1.wf hw) h
      exact ⟨h1.trans this.1, this.2⟩
    · cases h
      exact ⟨Stand.refl, he⟩

theorem autoFactorize_terminates (he : e.Scoped) (hw : e.WF) (n : Nat) (hn : e.ops < n) :
    ∃ r, autoFactorize n e = .ok r := by
  induction n generalizing e with
  | zero => omega
  | succ n ih =>
    rw [autoFactorize]
    obtain ⟨h1, h2, h3⟩ := recSearch_stand (Δ := .triv) (f := e) (env := fun _ _ => 0) he hw
      (fun _ _ _ => trivial) (fun _ _ _ => trivial)
    split_ifs with h0
    · exact ih h2 (h1.wf hw) (by have := h3 h0; omega)
    · exact ⟨_, rfl⟩

/-! ## No repetition is left -/

theorem Expr.sizeOf_subs (h : g ∈ e.subs) : sizeOf g ≤ sizeOf e := by
  induction e with
  | var | zero | int | rat => simp only [Expr.subs, List.mem_singleton] at h; rw [h]
  | un o f ih =>
    simp only [Expr.subs, List.mem_cons] at h
    rcases h with rfl | h
    · exact le_rfl
    · have := ih h; simp only [Expr.un.sizeOf_spec]; omega
  | bin o f k i1 i2 =>
    simp only [Expr.subs, List.mem_cons, List.mem_append] at h
    rcases h with rfl | h | h
    · exact le_rfl
    · have := i1 h; simp only [Expr.bin.sizeOf_spec]; omega
    · have := i2 h; simp only [Expr.bin.sizeOf_spec]; omega
  | tern o f k l i1 i2 i3 =>
    simp only [Expr.subs, List.mem_cons, List.mem_append] at h
    rcases h with rfl | h | h | h
    · exact le_rfl
    · have := i1 h; simp only [Expr.tern.sizeOf_spec]; omega
    · have := i2 h; simp only [Expr.tern.sizeOf_spec]; omega
    · have := i3 h; simp only [Expr.tern.sizeOf_spec]; omega
  | fact j d c f k i1 i2 =>
    simp only [Expr.subs, List.mem_cons, List.mem_append] at h
    rcases h with rfl | h | h
    · exact le_rfl
    · have := i1 h; simp only [Expr.fact.sizeOf_spec]; omega
    · have := i2 h; simp only [Expr.fact.sizeOf_spec]; omega

theorem Expr.subs_count_lt (h : sizeOf e < sizeOf g) : e.subs.count g = 0 :=
  List.count_eq_zero.mpr fun hm => by have := Expr.sizeOf_subs hm; omega

/-- The counter of `replace_and_count` is the number of occurrences. -/
theorem Expr.count_subs : e.count g = e.subs.count g := by
  induction e with
  | var | zero | int | rat =>
    unfold Expr.count Expr.subs
    split_ifs with h
    · rw [h]; simp
    · simp [List.count_cons, h]
  | un o f ih =>
    unfold Expr.count Expr.subs
    split_ifs with h
    · subst h
      rw [List.count_cons_self, Expr.subs_count_lt (by simp only [Expr.un.sizeOf_spec]; omega)]
    · rw [ih, List.count_cons_of_ne h]
  | bin o f k i1 i2 =>
    unfold Expr.count Expr.subs
    split_ifs with h
    · subst h
      rw [List.count_cons_self, List.count_append,
        Expr.subs_count_lt (by simp only [Expr.bin.sizeOf_spec]; omega),
        Expr.subs_count_lt (by simp only [Expr.bin.sizeOf_spec]; omega)]
    · rw [i1, i2, List.count_cons_of_ne h, List.count_append]
  | tern o f k l i1 i2 i3 =>
    unfold Expr.count Expr.subs
    split_ifs with h
    · subst h
      rw [List.count_cons_self, List.count_append, List.count_append,
        Expr.subs_count_lt (by simp only [Expr.tern.sizeOf_spec]; omega),
        Expr.subs_count_lt (by simp only [Expr.tern.sizeOf_spec]; omega),
        Expr.subs_count_lt (by simp only [Expr.tern.sizeOf_spec]; omega)]
    · rw [i1, i2, i3, List.count_cons_of_ne h, List.count_append, List.count_append, Nat.add_assoc]
  | fact j d c f k i1 i2 =>
    unfold Expr.count Expr.subs
    split_ifs with h
    · subst h
      rw [List.count_cons_self, List.count_append,
        Expr.subs_count_lt (by simp only [Expr.fact.sizeOf_spec]; omega),
        Expr.subs_count_lt (by simp only [Expr.fact.sizeOf_spec]; omega)]
    · rw [i1, i2, List.count_cons_of_ne h, List.count_append]

theorem Expr.inds_replace {d : Nat} {c : Int} (h : 0 < e.count g) :
    i ∈ (e.replace g (.var i d c)).inds := by
  induction e with
  | var | zero | int | rat =>
    unfold Expr.count at h
    unfold Expr.replace
    split_ifs at h ⊢ with h0
    · simp [Expr.inds]
    · omega
  | un o f ih =>
    unfold Expr.count at h
    unfold Expr.replace
    split_ifs at h ⊢ with h0
    · simp [Expr.inds]
    · exact ih h
  | bin o f k i1 i2 =>
    unfold Expr.count at h
    unfold Expr.replace
    split_ifs at h ⊢ with h0
    · simp [Expr.inds]
    · simp only [Expr.inds, List.mem_append]
      rcases Nat.eq_zero_or_pos (f.count g) with h1 | h1
      · exact .inr (i2 (by omega))
      · exact .inl (i1 h1)
  | tern o f k l i1 i2 i3 =>
    unfold Expr.count at h
    unfold Expr.replace
    split_ifs at h ⊢ with h0
    · simp [Expr.inds]
    · simp only [Expr.inds, List.mem_append]
      rcases Nat.eq_zero_or_pos (f.count g) with h1 | h1
      · rcases Nat.eq_zero_or_pos (k.count g) with h2 | h2
        · exact .inr (.inr (i3 (by omega)))
        · exact .inr (.inl (i2 h2))
      · exact .inl (i1 h1)
  | fact j d c f k i1 i2 =>
    unfold Expr.count at h
    unfold Expr.replace
    split_ifs at h ⊢ with h0
    · simp [Expr.inds]
    · simp only [Expr.inds, List.mem_append]
      rcases Nat.eq_zero_or_pos (f.count g) with h1 | h1
      · exact .inr (i2 (by omega))
      · exact .inl (i1 h1)

theorem factorize_fixed (h : factorize e g = e) : e.count g ≤ 1 ∨ g.isAtom := by
  unfold factorize at h
  simp only at h
  split_ifs at h with h1 h2
  · exact .inr h1
  · have h3 := Expr.inds_replace (i := newInd e) (d := g.dim) (c := 3) (show 0 < e.count g by omega)
    obtain ⟨t, ht, hti⟩ := Expr.mem_inds.mp h3
    have := vars_inds' (factorize_vars (g := g) (i := newInd e) (d := g.dim) (c := 3) |>.mpr (.inl ht)) hti
    rw [h] at this
    exact absurd this newInd_fresh.1
  · exact .inl (by omega)

/-- When the search changes nothing, no sub-formula met in it can be factorized. -/
theorem recSearch_fixed {t : Expr} (h : recSearch e t = e) (hg : g ∈ t.subs) : factorize e g = e := by
  induction t with
  | var | zero | int | rat =>
    simp only [Expr.subs, List.mem_singleton] at hg
    rw [hg]; exact h
  | un o f ih =>
    rw [recSearch] at h
    split_ifs at h with h1
    · exact absurd h h1
    · simp only [Expr.subs, List.mem_cons] at hg
      rcases hg with rfl | hg
      · exact not_not.mp h1
      · exact ih h hg
  | bin o f k i1 i2 =>
    rw [recSearch] at h
    simp only at h
    split_ifs at h with h1 h2
    · exact absurd h h1
    · exact absurd h h2
    · simp only [Expr.subs, List.mem_cons, List.mem_append] at hg
      rcases hg with rfl | hg | hg
      · exact not_not.mp h1
      · exact i1 (not_not.mp h2) hg
      · exact i2 h hg
  | tern o f k l i1 i2 i3 =>
    rw [recSearch] at h
    simp only at h
    split_ifs at h with h1 h2 h3
    · exact absurd h h1
    · exact absurd h h2
    · exact absurd h h3
    · simp only [Expr.subs, List.mem_cons, List.mem_append] at hg
      rcases hg with rfl | hg | hg | hg
      · exact not_not.mp h1
      · exact i1 (not_not.mp h2) hg
      · exact i2 (not_not.mp h3) hg
      · exact i3 h hg
  | fact j d c f k i1 i2 =>
    rw [recSearch] at h
    simp only at h
    split_ifs at h with h1 h2
    · exact absurd h h1
    · exact absurd h h2
    · simp only [Expr.subs, List.mem_cons, List.mem_append] at hg
      rcases hg with rfl | hg | hg
      · exact not_not.mp h1
      · exact i1 (not_not.mp h2) hg
      · exact i2 h hg

theorem recSearch_noRepeat (h : recSearch e e = e) : e.NoRepeat := by
  intro g
  by_cases hg : g ∈ e.subs
  · rcases factorize_fixed (recSearch_fixed h hg) with h1 | h1
    · exact .inl (Expr.count_subs ▸ h1)
    · refine .inr ?_
      cases g with
      | var i d c => exact .inl ⟨i, d, c, rfl⟩
      | zero d => exact .inr (.inl ⟨d, rfl⟩)
      | int n => exact .inr (.inr ⟨n, rfl⟩)
      | _ => cases h1
  · exact .inl (by rw [List.count_eq_zero.mpr hg]; omega)

/-! ## Temporary variables are not inputs -/

theorem factorize_negative {s : Int × Nat × Int} (he : e.Scoped) (h : s ∈ (factorize e g).tempVars) :
    s ∈ e.tempVars ∨ s.1 < 0 := by
  unfold factorize at h
  simp only at h
  split_ifs at h with h1 h2
  · exact .inl h
  · by_cases hg : g.FactFree
    · rcases factorize_temp.mp h with h | rfl
      · rw [he.tempVars_replace (new := .var (newInd e) g.dim 3) hg trivial] at h
        exact .inl h
      · exact .inr newInd_fresh.2
    · have := he.count_le hg
      omega
  · exact .inl h

theorem autoFactorize_negative {n : Nat} {s : Int × Nat × Int} (he : e.Scoped)
    (h : autoFactorize n e = .ok f) (hs : s ∈ f.tempVars) : s ∈ e.tempVars ∨ s.1 < 0 := by
  induction n generalizing e with
  | zero => cases h
  | succ n ih =>
    rw [autoFactorize] at h
    split_ifs at h with h0
    · rcases recSearch_cases e e with h1 | ⟨g, h1⟩
      · exact absurd h1 h0
      · rw [h1] at h
        rcases ih he.factorize h with h2 | h2
        · exact factorize_negative he h2
        · exact .inr h2
    · cases h
      exact .inl hs

end

end Verif
