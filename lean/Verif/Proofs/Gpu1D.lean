import Mathlib.Data.List.Nodup
import Mathlib.Data.List.Basic
import Verif.Spec.KernelReduction
import Verif.Proofs.Lawful

/-! The one-dimensional GPU kernel computes the same rows as the sequential loop. -/

namespace Verif

variable {V : Type}

open Spec (EvLocal WfVars)

/-- What the table `t` gives for the variables `vs`: row `row` of each one. -/
def Loaded (vs : List VarInfo) (args : Nat → Mem V) (row : Nat) (t : Nat → Option (Mem V)) : Prop :=
  ∀ v ∈ vs, ∃ m, t v.ind = some m ∧ ∀ k < v.dim, m k = args v.ind (row * v.dim + k)

theorem sumDims_cons (v : VarInfo) (vs : List VarInfo) : sumDims (v :: vs) = v.dim + sumDims vs := by
  simp [sumDims]

/-! ### `load_vars` -/

theorem loadVar_inner (f : Nat → V) (n : Nat) (x : Mem V) (a : Nat) :
    (forRange n (fun w (s : Mem V × Nat) => (s.1.set s.2 (f w), s.2 + 1)) (x, a)).2 = a + n ∧
    ∀ p, (forRange n (fun w (s : Mem V × Nat) => (s.1.set s.2 (f w), s.2 + 1)) (x, a)).1 p =
      if a ≤ p ∧ p < a + n then f (p - a) else x p := by
  induction n with
  | zero => simp; intro p h1 h2; omega
  | succ n ih =>
    rw [forRange_succ]
    obtain ⟨ih1, ih2⟩ := ih
    refine ⟨by simp only [ih1]; omega, ?_⟩
    intro p
    simp only [ih1, Mem.set_apply, ih2]
    by_cases hp : p = a + n
    · subst hp
      rw [if_pos rfl, if_pos (by omega)]; congr 1; omega
    · rw [if_neg hp]
      have : (a ≤ p ∧ p < a + (n + 1)) ↔ (a ≤ p ∧ p < a + n) := by omega
      simp only [this]

theorem loadVars_fold (args : Nat → Mem V) (row : Nat) (vs : List VarInfo) (x : Mem V) (a : Nat) :
    let r := vs.foldl (fun (s : Mem V × Nat) v =>
      forRange v.dim (fun w (s : Mem V × Nat) =>
        (s.1.set s.2 (args v.ind (row * v.dim + w)), s.2 + 1)) s) (x, a)
    (∀ p, (p < a ∨ a + sumDims vs ≤ p) → r.1 p = x p) ∧
    (∀ pre v post, vs = pre ++ v :: post → ∀ w < v.dim,
      r.1 (a + sumDims pre + w) = args v.ind (row * v.dim + w)) := by
  induction vs generalizing x a with
  | nil => simp
  | cons u us ih =>
    simp only [List.foldl_cons]
    obtain ⟨h1, h2⟩ := loadVar_inner (fun w => args u.ind (row * u.dim + w)) u.dim x a
    generalize hs : forRange u.dim _ (x, a) = s at h1 h2 ⊢
    obtain ⟨s1, s2⟩ := s
    simp only at h1 h2
    subst h1
    obtain ⟨ih1, ih2⟩ := ih s1 (a + u.dim)
    refine ⟨?_, ?_⟩
    · intro p hp
      rw [sumDims_cons] at hp
      rw [ih1 p (by omega), h2, if_neg (by omega)]
    · intro pre v post hsplit w hw
      cases pre with
      | nil =>
        simp only [List.nil_append, List.cons.injEq] at hsplit
        obtain ⟨rfl, rfl⟩ := hsplit
        simp only [sumDims, List.map_nil, List.sum_nil, Nat.add_zero]
        rw [ih1 (a + w) (by omega), h2, if_pos (by omega)]
        have e : a + w - a = w := by omega
        simp only [e]
      | cons u' pre =>
        simp only [List.cons_append, List.cons.injEq] at hsplit
        obtain ⟨rfl, rfl⟩ := hsplit
        have := ih2 pre v post rfl w hw
        rw [sumDims_cons, ← Nat.add_assoc]
        exact this

theorem loadVars_spec (args : Nat → Mem V) (row : Nat) (pre : List VarInfo) (v : VarInfo)
    (post : List VarInfo) (x : Mem V) {w : Nat} (hw : w < v.dim) :
    loadVars (pre ++ v :: post) args row x (sumDims pre + w) = args v.ind (row * v.dim + w) := by
  have := (loadVars_fold args row (pre ++ v :: post) x 0).2 pre v post rfl w hw
  simpa [loadVars] using this

theorem loadVars_out (args : Nat → Mem V) (row : Nat) (vs : List VarInfo) (x : Mem V) {p : Nat}
    (hp : sumDims vs ≤ p) : loadVars vs args row x p = x p := by
  have := (loadVars_fold args row vs x 0).1 p (Or.inr (by omega))
  simpa [loadVars] using this

/-- Every position below `sumDims` belongs to one variable. -/
theorem sumDims_split (vs : List VarInfo) {p : Nat} (hp : p < sumDims vs) :
    ∃ pre v post w, vs = pre ++ v :: post ∧ w < v.dim ∧ p = sumDims pre + w := by
  induction vs generalizing p with
  | nil => simp [sumDims] at hp
  | cons u us ih =>
    rw [sumDims_cons] at hp
    by_cases h : p < u.dim
    · exact ⟨[], u, us, p, rfl, h, by simp [sumDims]⟩
    · obtain ⟨pre, v, post, w, rfl, hw, he⟩ := ih (p := p - u.dim) (by omega)
      refine ⟨u :: pre, v, post, w, rfl, hw, ?_⟩
      rw [sumDims_cons]; omega

theorem loadVars_in (args : Nat → Mem V) (row : Nat) (vs : List VarInfo) (x x' : Mem V) {p : Nat}
    (hp : p < sumDims vs) : loadVars vs args row x p = loadVars vs args row x' p := by
  obtain ⟨pre, v, post, w, rfl, hw, rfl⟩ := sumDims_split vs hp
  rw [loadVars_spec args row pre v post x hw, loadVars_spec args row pre v post x' hw]

/-! ### `table` and `direct_table` -/

theorem table_fold (xloc : Mem V) (vs : List VarInfo) (hnd : (vs.map (·.ind)).Nodup)
    (r : Nat → Option (Mem V)) (a : Nat) :
    let s := vs.foldl (fun (s : (Nat → Option (Mem V)) × Nat) (v : VarInfo) =>
      ((fun ind => if ind = v.ind then some (xloc.shift s.2) else s.1 ind), s.2 + v.dim)) (r, a)
    (∀ ind, ind ∉ vs.map (·.ind) → s.1 ind = r ind) ∧
    (∀ pre v post, vs = pre ++ v :: post → s.1 v.ind = some (xloc.shift (a + sumDims pre))) := by
  induction vs generalizing r a with
  | nil => simp
  | cons u us ih =>
    simp only [List.map_cons, List.nodup_cons] at hnd
    simp only [List.foldl_cons]
    obtain ⟨ih1, ih2⟩ := ih hnd.2 (fun ind => if ind = u.ind then some (xloc.shift a) else r ind)
      (a + u.dim)
    refine ⟨?_, ?_⟩
    · intro ind hind
      simp only [List.map_cons, List.mem_cons, not_or] at hind
      rw [ih1 ind hind.2, if_neg hind.1]
    · intro pre v post hsplit
      cases pre with
      | nil =>
        simp only [List.nil_append, List.cons.injEq] at hsplit
        obtain ⟨rfl, rfl⟩ := hsplit
        rw [ih1 _ hnd.1]
        simp [sumDims]
      | cons u' pre =>
        simp only [List.cons_append, List.cons.injEq] at hsplit
        obtain ⟨rfl, rfl⟩ := hsplit
        rw [ih2 pre v post rfl, sumDims_cons]
        congr 2; omega

theorem direct_fold (args : Nat → Mem V) (row : Nat) (vs : List VarInfo)
    (hnd : (vs.map (·.ind)).Nodup) (r : Nat → Option (Mem V)) :
    let s := vs.foldl (fun (res : Nat → Option (Mem V)) (v : VarInfo) =>
      fun ind => if ind = v.ind then some ((args v.ind).shift (row * v.dim)) else res ind) r
    (∀ ind, ind ∉ vs.map (·.ind) → s ind = r ind) ∧
    (∀ v ∈ vs, s v.ind = some ((args v.ind).shift (row * v.dim))) := by
  induction vs generalizing r with
  | nil => simp
  | cons u us ih =>
    simp only [List.map_cons, List.nodup_cons] at hnd
    simp only [List.foldl_cons]
    obtain ⟨ih1, ih2⟩ := ih hnd.2 (fun ind =>
      if ind = u.ind then some ((args u.ind).shift (row * u.dim)) else r ind)
    refine ⟨?_, ?_⟩
    · intro ind hind
      simp only [List.map_cons, List.mem_cons, not_or] at hind
      rw [ih1 ind hind.2, if_neg hind.1]
    · intro v hv
      rcases List.mem_cons.mp hv with rfl | hv
      · rw [ih1 _ hnd.1]; simp
      · exact ih2 v hv

theorem varsOf_nodup {vars : List VarInfo} (h : (vars.map (·.ind)).Nodup) (c : Nat) :
    ((varsOf vars c).map (·.ind)).Nodup :=
  h.sublist (List.filter_sublist.map _)

theorem varsOf_disjoint {vars : List VarInfo} (h : (vars.map (·.ind)).Nodup) {c c' : Nat}
    (hc : c ≠ c') {v : VarInfo} (hv : v ∈ varsOf vars c) : v.ind ∉ (varsOf vars c').map (·.ind) := by
  intro hm
  obtain ⟨w, hw, he⟩ := List.mem_map.mp hm
  simp only [varsOf, List.mem_filter, decide_eq_true_eq] at hv hw
  have : w = v := List.inj_on_of_nodup_map h hw.1 hv.1 he
  subst this
  exact hc (hv.2.symm.trans hw.2)

theorem directTable_spec {vars : List VarInfo} (hw : WfVars vars) {tagI : Nat} (ht : tagI < 2)
    (args : Nat → Mem V) (i j : Nat) :
    Loaded (varsOf vars tagI) args i (directTable vars tagI args i j) ∧
    Loaded (varsOf vars (1 - tagI)) args j (directTable vars tagI args i j) ∧
    Loaded (varsOf vars 2) args 0 (directTable vars tagI args i j) := by
  have hne1 : tagI ≠ 1 - tagI := by omega
  have hne2 : tagI ≠ 2 := by omega
  have hne3 : 1 - tagI ≠ 2 := by omega
  unfold directTable
  simp only
  have d1 := direct_fold args i (varsOf vars tagI) (varsOf_nodup hw.nodup _) (fun _ => none)
  generalize (varsOf vars tagI).foldl _ (fun _ : Nat => (none : Option (Mem V))) = r1 at d1 ⊢
  have d2 := direct_fold args j (varsOf vars (1 - tagI)) (varsOf_nodup hw.nodup _) r1
  generalize (varsOf vars (1 - tagI)).foldl _ r1 = r2 at d2 ⊢
  have d3 := direct_fold args 0 (varsOf vars 2) (varsOf_nodup hw.nodup _) r2
  generalize (varsOf vars 2).foldl _ r2 = r3 at d3 ⊢
  refine ⟨?_, ?_, ?_⟩
  · intro v hv
    refine ⟨_, ?_, fun k _ => Mem.shift_apply ..⟩
    rw [d3.1 _ (varsOf_disjoint hw.nodup hne2 hv), d2.1 _ (varsOf_disjoint hw.nodup hne1 hv)]
    exact d1.2 v hv
  · intro v hv
    refine ⟨_, ?_, fun k _ => Mem.shift_apply ..⟩
    rw [d3.1 _ (varsOf_disjoint hw.nodup hne3 hv)]
    exact d2.2 v hv
  · intro v hv
    exact ⟨_, d3.2 v hv, fun k _ => Mem.shift_apply ..⟩

/-- A buffer containing row `row` of each variable of `vs` one after the other. -/
def Holds (vs : List VarInfo) (args : Nat → Mem V) (row : Nat) (x : Mem V) : Prop :=
  ∀ pre v post, vs = pre ++ v :: post → ∀ w < v.dim,
    x (sumDims pre + w) = args v.ind (row * v.dim + w)

theorem table_spec {vars : List VarInfo} (hw : WfVars vars) {tagI : Nat} (ht : tagI < 2)
    (args : Nat → Mem V) (i j : Nat) (xi yj pp : Mem V)
    (hx : Holds (varsOf vars tagI) args i xi) (hy : Holds (varsOf vars (1 - tagI)) args j yj)
    (hp : Holds (varsOf vars 2) args 0 pp) :
    Loaded (varsOf vars tagI) args i (table vars tagI xi yj pp) ∧
    Loaded (varsOf vars (1 - tagI)) args j (table vars tagI xi yj pp) ∧
    Loaded (varsOf vars 2) args 0 (table vars tagI xi yj pp) := by
  have hne1 : tagI ≠ 1 - tagI := by omega
  have hne2 : tagI ≠ 2 := by omega
  have hne3 : 1 - tagI ≠ 2 := by omega
  unfold table
  simp only
  have d1 := table_fold xi (varsOf vars tagI) (varsOf_nodup hw.nodup _) (fun _ => none) 0
  simp only at d1
  generalize ((varsOf vars tagI).foldl _ ((fun _ : Nat => (none : Option (Mem V))), 0)).1 = r1 at d1 ⊢
  have d2 := table_fold yj (varsOf vars (1 - tagI)) (varsOf_nodup hw.nodup _) r1 0
  simp only at d2
  generalize ((varsOf vars (1 - tagI)).foldl _ (r1, 0)).1 = r2 at d2 ⊢
  have d3 := table_fold pp (varsOf vars 2) (varsOf_nodup hw.nodup _) r2 0
  simp only at d3
  generalize ((varsOf vars 2).foldl _ (r2, 0)).1 = r3 at d3 ⊢
  refine ⟨?_, ?_, ?_⟩
  · intro v hv
    obtain ⟨pre, post, hs⟩ := List.append_of_mem hv
    refine ⟨xi.shift (0 + sumDims pre), ?_, fun k hk => ?_⟩
    · rw [d3.1 _ (varsOf_disjoint hw.nodup hne2 hv), d2.1 _ (varsOf_disjoint hw.nodup hne1 hv)]
      exact d1.2 pre v post hs
    · rw [Mem.shift_apply, Nat.zero_add]; exact hx pre v post hs k hk
  · intro v hv
    obtain ⟨pre, post, hs⟩ := List.append_of_mem hv
    refine ⟨yj.shift (0 + sumDims pre), ?_, fun k hk => ?_⟩
    · rw [d3.1 _ (varsOf_disjoint hw.nodup hne3 hv)]
      exact d2.2 pre v post hs
    · rw [Mem.shift_apply, Nat.zero_add]; exact hy pre v post hs k hk
  · intro v hv
    obtain ⟨pre, post, hs⟩ := List.append_of_mem hv
    refine ⟨_, d3.2 pre v post hs, fun k hk => ?_⟩
    rw [Mem.shift_apply, Nat.zero_add]; exact hp pre v post hs k hk

theorem ev_loaded {vars : List VarInfo} (hw : WfVars vars) {tagI : Nat} (ht : tagI < 2)
    {ev : (Nat → Option (Mem V)) → Mem V} (hev : EvLocal vars ev) {args : Nat → Mem V} {i j : Nat}
    {t t' : Nat → Option (Mem V)}
    (h : Loaded (varsOf vars tagI) args i t ∧ Loaded (varsOf vars (1 - tagI)) args j t ∧
      Loaded (varsOf vars 2) args 0 t)
    (h' : Loaded (varsOf vars tagI) args i t' ∧ Loaded (varsOf vars (1 - tagI)) args j t' ∧
      Loaded (varsOf vars 2) args 0 t') : ev t = ev t' := by
  apply hev
  intro v hv
  have hc := hw.cat v hv
  have key : ∀ c row, v ∈ varsOf vars c → Loaded (varsOf vars c) args row t →
      Loaded (varsOf vars c) args row t' →
      ∃ m m', t v.ind = some m ∧ t' v.ind = some m' ∧ ∀ k < v.dim, m k = m' k := by
    intro c row hm h1 h2
    obtain ⟨m, hm1, hm2⟩ := h1 v hm
    obtain ⟨m', hm1', hm2'⟩ := h2 v hm
    exact ⟨m, m', hm1, hm1', fun k hk => (hm2 k hk).trans (hm2' k hk).symm⟩
  have hin : ∀ c, v.cat = c → v ∈ varsOf vars c := by
    intro c hcc; simp [varsOf, hv, hcc]
  by_cases h1 : v.cat = tagI
  · exact key _ _ (hin _ h1) h.1 h'.1
  · by_cases h2 : v.cat = 2
    · exact key _ _ (hin _ h2) h.2.2 h'.2.2
    · exact key _ _ (hin (1 - tagI) (by omega)) h.2.1 h'.2.1

/-! ### The shared tile -/

theorem holds_of_eq_loadVars {vs : List VarInfo} {args : Nat → Mem V} {row : Nat} {x o : Mem V}
    (h : ∀ p < sumDims vs, x p = loadVars vs args row o p) : Holds vs args row x := by
  intro pre v post hs w hw
  have hlt : sumDims pre + w < sumDims vs := by
    subst hs
    simp only [sumDims, List.map_append, List.map_cons, List.sum_append, List.sum_cons]
    omega
  rw [h _ hlt]
  subst hs
  exact loadVars_spec args row pre v post o hw

theorem foldl_if_filter {α β : Type} (p : β → Bool) (f : α → β → α) (l : List β) (a : α) :
    l.foldl (fun a b => if p b then f a b else a) a = (l.filter p).foldl f a := by
  induction l generalizing a with
  | nil => rfl
  | cons b l ih =>
    by_cases h : p b
    · simp [h, ih]
    · simp [h, ih]

theorem foldl_congr_mem {α β : Type} {f g : α → β → α} (l : List β) (a : α)
    (h : ∀ a, ∀ b ∈ l, f a b = g a b) : l.foldl f a = l.foldl g a := by
  induction l generalizing a with
  | nil => rfl
  | cons b l ih =>
    simp only [List.foldl_cons]
    rw [h a b (by simp)]
    exact ih _ (fun a b hb => h a b (by simp [hb]))

theorem gpuLoadTile_spec (varsj : List VarInfo) (args : Nat → Mem V) (B ny tile : Nat)
    (ts : List Nat) (hnd : ts.Nodup) (yj : Mem V) {t : Nat} (ht : t ∈ ts) (hj : tile * B + t < ny) :
    Holds varsj args (tile * B + t)
      ((gpuLoadTile varsj args B ny tile ts yj).shift (t * sumDims varsj)) := by
  have h := foldl_onSlice_rows (d := sumDims varsj)
    (fun t => loadVars varsj args (tile * B + t))
    (fun i o o' p hp => loadVars_in args _ varsj o o' hp)
    (fun i o p hp => loadVars_out args _ varsj o hp)
    (ts.filter (fun t => decide (tile * B + t < ny))) (hnd.filter _) yj
  apply holds_of_eq_loadVars (o := yj)
  intro p hp
  rw [Mem.shift_apply]
  have h1 := h.1 t (by simp [ht, hj]) p hp yj
  rw [← h1]
  have := foldl_if_filter (fun t => decide (tile * B + t < ny))
    (fun yj t => onSlice (t * sumDims varsj) (loadVars varsj args (tile * B + t)) yj) ts yj
  rw [← this]
  simp only [gpuLoadTile, decide_eq_true_eq]

/-! ### The kernel -/

theorem gpuTiles_correct {E} {R : Red V} {S : Scheme V} {A Bf G} (h : LawfulScheme E R S A Bf G)
    (varsj : List VarInfo) (args : Nat → Mem V) (Fs : Mem V → Mem V) (F : Nat → Mem V)
    (hF : ∀ j y, Holds varsj args j y → Fs y = F j)
    {B ny : Nat} (hB : 0 < B) (ord : Nat → List Nat)
    (hord : ∀ tile, (ord tile).Nodup ∧ ∀ t < B, t ∈ ord tile) :
    ∀ fuel jstart tile yj s, jstart = tile * B → ny ≤ jstart + fuel →
      G (items (min jstart ny) F) s →
      G (items ny F) (gpuTiles S varsj args Fs B ny ord fuel jstart tile yj s).2 := by
  intro fuel
  induction fuel with
  | zero =>
    intro jstart tile yj s _ hfuel hs
    rw [min_eq_right (by omega)] at hs
    exact hs
  | succ fuel ih =>
    intro jstart tile yj s hj hfuel hs
    unfold gpuTiles
    split
    · next hlt =>
      apply ih
      · rw [hj, Nat.succ_mul]
      · omega
      · rw [min_eq_left (Nat.le_of_lt hlt)] at hs
        unfold gpuTileThread
        have hmin : min (jstart + B) ny = jstart + min B (ny - jstart) := by omega
        rw [hmin]
        apply h.final _ _ (Or.inr (items_ne_nil (by omega)))
        apply forRange_inv (P := fun n s => Bf (items (jstart + n) F) s)
        · exact h.blockInit _ _ hs
        · intro jrel s hjr hs
          rw [← Nat.add_assoc, items_succ]
          have hjr' : jrel < B ∧ jrel < ny - jstart := by omega
          have e : jrel + tile * B = jstart + jrel := by omega
          rw [e]
          have hold := gpuLoadTile_spec varsj args B ny tile (ord tile) (hord tile).1 yj
            ((hord tile).2 jrel hjr'.1) (by omega)
          rw [hF (jstart + jrel) _ (by rw [hj]; exact hold)]
          exact h.accum _ _ _ _ hs
    · next hlt =>
      rw [min_eq_right (by omega)] at hs
      exact hs

/-- All threads of the launch: every `(block, thread)` pair of the grid exactly once. -/
structure Complete1D (B nx : Nat) (sched : List (Nat × Nat)) : Prop where
  nodup : sched.Nodup
  mem : ∀ b t, (b, t) ∈ sched ↔ b < gridSize nx B ∧ t < B

theorem gridSize_covers {B nx i : Nat} (hB : 0 < B) (hi : i < nx) : i / B < gridSize nx B := by
  unfold gridSize
  have h1 := Nat.div_add_mod nx B
  split
  · next h0 =>
    rw [Nat.add_zero]
    apply Nat.div_lt_of_lt_mul
    omega
  · apply Nat.div_lt_of_lt_mul
    rw [Nat.mul_add, Nat.mul_one]
    have := Nat.mod_lt nx hB
    omega

theorem gpu1D_correct {E} {R : Red V} {S : Scheme V} {A Bf G} (h : LawfulScheme E R S A Bf G)
    (hf : FinLocal R) {vars : List VarInfo} (hw : WfVars vars) {tagI : Nat} (ht : tagI < 2)
    {ev : (Nat → Option (Mem V)) → Mem V} (hev : EvLocal vars ev)
    {B nx ny : Nat} (hB : 0 < B) (args : Nat → Mem V)
    (ord : Nat → Nat → List Nat) (hord : ∀ b tile, (ord b tile).Nodup ∧ ∀ t < B, t ∈ ord b tile)
    (junk : Nat → Nat → Mem V) (sched : List (Nat × Nat)) (hs : Complete1D B nx sched)
    (out : Mem V) :
    (∀ i < nx, ∃ acc, A (items ny (fun j => ev (directTable vars tagI args i j))) acc ∧
      ∀ k < R.dim, ∀ o,
      gpu1D R S ev vars tagI B nx ny args ord junk sched out (i * R.dim + k) = R.fin acc o k) ∧
    (∀ p, nx * R.dim ≤ p → gpu1D R S ev vars tagI B nx ny args ord junk sched out p = out p) := by
  have hthread : ∀ i b, ∃ acc, A (items ny (fun j => ev (directTable vars tagI args i j))) acc ∧
      ∀ o, gpu1DThread R S ev vars tagI B ny args (ord b) (junk i) i o = R.fin acc o := by
    intro i b
    refine ⟨_, ?_, fun o => rfl⟩
    apply h.acc
    apply gpuTiles_correct h _ _ _ _ ?_ hB _ (hord b) ny 0 0 _ _ (by simp) (by omega)
    · simpa [items] using h.gpuInit _ _
    · intro j y hy
      apply ev_loaded hw ht hev (args := args) (i := i) (j := j)
      · exact table_spec hw ht args i j _ _ _
          (holds_of_eq_loadVars (fun p _ => rfl)) hy (holds_of_eq_loadVars (fun p _ => rfl))
      · exact directTable_spec hw ht args i j
  -- rewrite the launch as a list of rows
  let rows := (sched.filter (fun bt => decide (bt.1 * B + bt.2 < nx)))
  have hfold : gpu1D R S ev vars tagI B nx ny args ord junk sched out =
      (rows.map (fun bt => bt.1 * B + bt.2)).foldl (fun out i => onSlice (i * R.dim)
        (gpu1DThread R S ev vars tagI B ny args (ord (i / B)) (junk i) i) out) out := by
    have := foldl_if_filter (fun bt : Nat × Nat => decide (bt.1 * B + bt.2 < nx))
      (fun out bt => onSlice ((bt.1 * B + bt.2) * R.dim) (gpu1DThread R S ev vars tagI B ny args
        (ord bt.1) (junk (bt.1 * B + bt.2)) (bt.1 * B + bt.2)) out) sched out
    simp only [decide_eq_true_eq] at this
    unfold gpu1D
    rw [this, List.foldl_map]
    apply foldl_congr_mem
    intro o bt hbt
    have hm := (List.mem_filter.mp hbt).1
    have := ((hs.mem bt.1 bt.2).mp hm).2
    have : (bt.1 * B + bt.2) / B = bt.1 := by
      rw [Nat.mul_comm, Nat.mul_add_div hB, Nat.div_eq_of_lt this, Nat.add_zero]
    rw [this]
  have hnd : (rows.map (fun bt => bt.1 * B + bt.2)).Nodup := by
    apply (List.nodup_map_iff_inj_on (hs.nodup.filter _)).mpr
    intro x hx y hy he
    have hx' := ((hs.mem x.1 x.2).mp (List.mem_filter.mp hx).1).2
    have hy' := ((hs.mem y.1 y.2).mp (List.mem_filter.mp hy).1).2
    have e1 : x.1 = y.1 := by
      have := congrArg (· / B) he
      simp only [Nat.mul_comm _ B, Nat.mul_add_div hB, Nat.div_eq_of_lt hx',
        Nat.div_eq_of_lt hy', Nat.add_zero] at this
      exact this
    refine Prod.ext e1 ?_
    rw [e1] at he
    omega
  have hmem : ∀ i, i ∈ rows.map (fun bt => bt.1 * B + bt.2) ↔ i < nx := by
    intro i
    constructor
    · intro hi
      obtain ⟨bt, hbt, rfl⟩ := List.mem_map.mp hi
      simpa using (List.mem_filter.mp hbt).2
    · intro hi
      refine List.mem_map.mpr ⟨(i / B, i % B), ?_, ?_⟩
      · refine List.mem_filter.mpr ⟨(hs.mem _ _).mpr ⟨gridSize_covers hB hi, Nat.mod_lt _ hB⟩, ?_⟩
        simp only [decide_eq_true_eq]
        rw [Nat.mul_comm, Nat.div_add_mod]; exact hi
      · simp only
        rw [Nat.mul_comm, Nat.div_add_mod]
  have hrows := foldl_onSlice_rows (d := R.dim)
    (fun i => gpu1DThread R S ev vars tagI B ny args (ord (i / B)) (junk i) i)
    (by
      intro i o o' p hp
      obtain ⟨acc, _, he⟩ := hthread i (i / B)
      simp only [he]
      exact (hf acc o o' p).1 hp)
    (by
      intro i o p hp
      obtain ⟨acc, _, he⟩ := hthread i (i / B)
      simp only [he]
      exact (hf acc o o p).2 hp) _ hnd out
  rw [hfold]
  refine ⟨?_, ?_⟩
  · intro i hi
    obtain ⟨acc, ha, he⟩ := hthread i (i / B)
    refine ⟨acc, ha, fun k hk o => ?_⟩
    have := hrows.1 i ((hmem i).mpr hi) k hk o
    simp only [he] at this
    exact this
  · intro p hp
    apply hrows.2
    intro i hi hc
    have := (hmem i).mp hi
    have : (i + 1) * R.dim ≤ nx * R.dim := Nat.mul_le_mul_right _ this
    rw [Nat.succ_mul] at this
    omega

end Verif
