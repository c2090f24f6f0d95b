import Verif.Props.Rename
import Verif.Props.EndToEnd

/-!
# C74, C41: exchange of `i` and `j` in whole calls
-/

namespace Verif

open Spec

theorem swapIJ_fst (p : Int × Int) : (swapIJ p).1 = p.1 := rfl

theorem nodes_swap {ρ : Int × Int → Int × Int} (e : Expr) : (e.rename ρ).nodes = e.nodes := by
  induction e <;> simp_all [Expr.rename, Expr.nodes]

theorem newArr_swap (junk : Expr → Nat → ℝ) (e : Expr) :
    newArr junk (e.rename swapIJ) = newArr (fun e => junk (e.rename swapIJ)) e := by
  simp only [newArr, Expr.dim_rename]

theorem evalArg_swap (junk : Expr → Nat → ℝ) (e : Expr) {run run' : CArr → Table → Except CErr (CArr × Table)}
    (h : ∀ out tab, run out tab = run' out tab) (tab : Table) :
    evalArg junk (e.rename swapIJ) run tab = evalArg (fun e => junk (e.rename swapIJ)) e run' tab := by
  cases e <;> simp only [Expr.rename, evalArg, h, swapIJ_fst] <;>
    rw [← newArr_swap] <;> rfl

theorem rename_replace {ρ : Int × Int → Int × Int} (hρ : Function.Injective ρ) (e a b : Expr) :
    (e.replace a b).rename ρ = (e.rename ρ).replace (a.rename ρ) (b.rename ρ) := by
  have key : ∀ x : Expr, (x.rename ρ = a.rename ρ) = (x = a) := fun x => propext (Expr.rename_inj hρ)
  induction e with
  | var i d c =>
    have := key (.var i d c)
    simp only [Expr.rename] at this
    simp only [Expr.replace, Expr.rename, this]
    split <;> rfl
  | zero d =>
    have := key (.zero d)
    simp only [Expr.rename] at this
    simp only [Expr.replace, Expr.rename, this]
    split <;> rfl
  | int d =>
    have := key (.int d)
    simp only [Expr.rename] at this
    simp only [Expr.replace, Expr.rename, this]
    split <;> rfl
  | rat p q =>
    have := key (.rat p q)
    simp only [Expr.rename] at this
    simp only [Expr.replace, Expr.rename, this]
    split <;> rfl
  | un o f ih =>
    have := key (.un o f)
    simp only [Expr.rename] at this
    simp only [Expr.replace, Expr.rename, this, ← ih]
    split <;> rfl
  | bin o f g ih ih' =>
    have := key (.bin o f g)
    simp only [Expr.rename] at this
    simp only [Expr.replace, Expr.rename, this, ← ih, ← ih']
    split <;> rfl
  | tern o f g k ih ih' ih'' =>
    have := key (.tern o f g k)
    simp only [Expr.rename] at this
    simp only [Expr.replace, Expr.rename, this, ← ih, ← ih', ← ih'']
    split <;> rfl
  | fact i d c f g ih ih' =>
    have := key (.fact i d c f g)
    simp only [Expr.rename] at this
    simp only [Expr.replace, Expr.rename, this, ← ih, ← ih']
    split <;> rfl

theorem rename_count {ρ : Int × Int → Int × Int} (hρ : Function.Injective ρ) (e a : Expr) :
    (e.rename ρ).count (a.rename ρ) = e.count a := by
  have key : ∀ x : Expr, (x.rename ρ = a.rename ρ) = (x = a) := fun x => propext (Expr.rename_inj hρ)
  induction e with
  | var i d c =>
    have := key (.var i d c)
    simp only [Expr.rename] at this
    simp only [Expr.count, Expr.rename, this]
  | zero d =>
    have := key (.zero d)
    simp only [Expr.rename] at this
    simp only [Expr.count, Expr.rename, this]
  | int d =>
    have := key (.int d)
    simp only [Expr.rename] at this
    simp only [Expr.count, Expr.rename, this]
  | rat p q =>
    have := key (.rat p q)
    simp only [Expr.rename] at this
    simp only [Expr.count, Expr.rename, this]
  | un o f ih =>
    have := key (.un o f)
    simp only [Expr.rename] at this
    simp only [Expr.count, Expr.rename, this, ih]
  | bin o f g ih ih' =>
    have := key (.bin o f g)
    simp only [Expr.rename] at this
    simp only [Expr.count, Expr.rename, this, ih, ih']
  | tern o f g k ih ih' ih'' =>
    have := key (.tern o f g k)
    simp only [Expr.rename] at this
    simp only [Expr.count, Expr.rename, this, ih, ih', ih'']
  | fact i d c f g ih ih' =>
    have := key (.fact i d c f g)
    simp only [Expr.rename] at this
    simp only [Expr.count, Expr.rename, this, ih, ih']

/-- A variable of a list of variables, renamed. -/
def renVar (ρ : Int × Int → Int × Int) (v : Int × Nat × Int) : Int × Nat × Int :=
  ((ρ (v.1, v.2.2)).1, v.2.1, (ρ (v.1, v.2.2)).2)

theorem renVar_injective {ρ : Int × Int → Int × Int} (hρ : Function.Injective ρ) : Function.Injective (renVar ρ) := by
  rintro ⟨i, d, c⟩ ⟨i', d', c'⟩ h
  simp only [renVar, Prod.mk.injEq] at h
  have := hρ (Prod.ext h.1 h.2.2)
  simp only [Prod.mk.injEq] at this
  rw [this.1, this.2, h.2.1]

theorem rename_vars (ρ : Int × Int → Int × Int) (e : Expr) : (e.rename ρ).vars = e.vars.map (renVar ρ) := by
  induction e <;> simp_all [Expr.rename, Expr.vars, renVar]

theorem swap_inds (e : Expr) : (e.rename swapIJ).inds = e.inds := by
  induction e <;> simp_all [Expr.rename, Expr.inds, swapIJ_fst]

theorem rename_tempVars (ρ : Int × Int → Int × Int) (e : Expr) :
    (e.rename ρ).tempVars = e.tempVars.map (renVar ρ) := by
  induction e <;> simp_all [Expr.rename, Expr.tempVars, renVar]

theorem rename_factorize_ {ρ : Int × Int → Int × Int} (hρ : Function.Injective ρ) (g : Expr) (i : Int) (d : Nat)
    (c : Int) (e : Expr) : (factorize_ g i d c e).rename ρ =
      factorize_ (g.rename ρ) (ρ (i, c)).1 d (ρ (i, c)).2 (e.rename ρ) := by
  induction e with
  | fact j d' c' f h ih ih' =>
    have hv : ((Expr.fact j d' c' f h).rename ρ).tempVars.any (fun v => decide (v ∈ (g.rename ρ).vars)) =
        (Expr.fact j d' c' f h).tempVars.any (fun v => decide (v ∈ g.vars)) := by
      rw [rename_tempVars, rename_vars, List.any_map]
      refine congrArg (List.any _) (funext fun v => ?_)
      simp only [Function.comp, decide_eq_decide]
      exact List.mem_map_of_injective (renVar_injective hρ)
    simp only [Expr.rename] at hv
    simp only [Expr.rename, factorize_, hv]
    split
    · simp only [Expr.rename, ih]
    · rfl
  | _ => rfl

theorem swap_factorize (e g : Expr) : (factorize e g).rename swapIJ = factorize (e.rename swapIJ) (g.rename swapIJ) := by
  have ha : (g.rename swapIJ).isAtom = g.isAtom := by cases g <;> rfl
  have hn : newInd (e.rename swapIJ) = newInd e := by simp only [newInd, swap_inds]
  have hr : (Expr.var (newInd e) g.dim 3) = (Expr.var (newInd e) g.dim 3).rename swapIJ := rfl
  unfold factorize
  simp only [ha, hn, rename_count swapIJ_injective, Expr.dim_rename]
  split
  · rfl
  · split
    · rw [rename_factorize_ swapIJ_injective, rename_replace swapIJ_injective]
      rfl
    · rfl

theorem swap_recSearch (e g : Expr) : (recSearch e g).rename swapIJ = recSearch (e.rename swapIJ) (g.rename swapIJ) := by
  have key : ∀ x : Expr, (x.rename swapIJ ≠ e.rename swapIJ) = (x ≠ e) := fun x =>
    propext (not_congr (Expr.rename_inj swapIJ_injective))
  induction g with
  | un o f ih =>
    have := swap_factorize e (.un o f)
    simp only [Expr.rename] at this
    simp only [recSearch, Expr.rename, ← this, ← ih, key]
    split_ifs <;> rfl
  | bin o f g ih ih' =>
    have := swap_factorize e (.bin o f g)
    simp only [Expr.rename] at this
    simp only [recSearch, Expr.rename, ← this, ← ih, ← ih', key]
    split_ifs <;> rfl
  | tern o f g k ih ih' ih'' =>
    have := swap_factorize e (.tern o f g k)
    simp only [Expr.rename] at this
    simp only [recSearch, Expr.rename, ← this, ← ih, ← ih', ← ih'', key]
    split_ifs <;> rfl
  | fact i d c f g ih ih' =>
    have := swap_factorize e (.fact i d c f g)
    simp only [Expr.rename] at this
    simp only [recSearch, Expr.rename, ← this, ← ih, ← ih', key]
    split_ifs <;> rfl
  | var i d c => exact swap_factorize e (.var i d c)
  | zero d => exact swap_factorize e (.zero d)
  | int n => exact swap_factorize e (.int n)
  | rat p q => exact swap_factorize e (.rat p q)

theorem swap_autoFactorize (n : Nat) (e : Expr) :
    autoFactorize n (e.rename swapIJ) = renamed swapIJ (autoFactorize n e) := by
  induction n generalizing e with
  | zero => rfl
  | succ n ih =>
    have key : (recSearch e e ≠ e) = ((recSearch e e).rename swapIJ ≠ e.rename swapIJ) :=
      propext (not_congr (Expr.rename_inj swapIJ_injective).symm)
    simp only [autoFactorize, ← swap_recSearch, ← key, ih]
    split_ifs <;> rfl

/-- The code of the formula with `i` and `j` exchanged is the same code. -/
theorem code_swap (M : CMath) (junk : Expr → Nat → ℝ) : ∀ (n : Nat) (e : Expr), e.nodes ≤ n → ∀ out tab,
    (e.rename swapIJ).code M junk out tab = e.code M (fun e => junk (e.rename swapIJ)) out tab := by
  intro n
  induction n with
  | zero =>
    intro e h
    cases e <;> simp [Expr.nodes] at h
  | succ n ih =>
    intro e h out tab
    cases e with
    | var i d c => rw [Expr.rename, Expr.code, Expr.code]; rfl
    | zero d => rw [Expr.rename, Expr.code, Expr.code]
    | int m => rw [Expr.rename, Expr.code, Expr.code]
    | rat p q => rw [Expr.rename, Expr.code, Expr.code]
    | un o f =>
      simp only [Expr.nodes] at h
      rw [Expr.rename, Expr.code, Expr.code, evalArg_swap junk f (ih f (by omega)), Expr.dim_rename]
    | bin o f g =>
      simp only [Expr.nodes] at h
      rw [Expr.rename, Expr.code, Expr.code, evalArg_swap junk f (ih f (by omega)), Expr.dim_rename, Expr.dim_rename]
      simp only [evalArg_swap junk g (ih g (by omega))]
    | tern o f g k =>
      simp only [Expr.nodes] at h
      rw [Expr.rename, Expr.code, Expr.code, evalArg_swap junk f (ih f (by omega))]
      simp only [evalArg_swap junk g (ih g (by omega)), evalArg_swap junk k (ih k (by omega))]
    | fact i d c f g =>
      simp only [Expr.nodes] at h
      have hr : ∀ m : Int, (f.rename swapIJ).replace (.var i d (swapIJ (i, c)).2) (.var m d (swapIJ (i, c)).2) =
          (f.replace (.var i d c) (.var m d c)).rename swapIJ := fun m =>
        (rename_replace swapIJ_injective f (.var i d c) (.var m d c)).symm
      rw [Expr.rename, Expr.code, Expr.code, ih g (by omega), newArr_swap]
      simp only [swapIJ_fst, hr]
      have hn : ∀ m : Int, (f.replace (.var i d c) (.var m d c)).nodes ≤ n := fun m => by
        rw [Expr.nodes_rename]; omega
      simp only [ih _ (hn _)]

/-! ## The whole call -/

/-- A loaded variable with `i` and `j` exchanged. -/
def swapInfo (v : VarInfo) : VarInfo := ⟨v.ind, v.dim, if v.cat = 0 then 1 else if v.cat = 1 then 0 else v.cat⟩

theorem swap_inputs (e : Expr) : (e.rename swapIJ).inputs = e.inputs.map swapInfo := by
  have hf : (e.vars.map (renVar swapIJ)).filter (fun v => v.2.2 = 0 ∨ v.2.2 = 1 ∨ v.2.2 = 2) =
      (e.vars.filter fun v => v.2.2 = 0 ∨ v.2.2 = 1 ∨ v.2.2 = 2).map (renVar swapIJ) := by
    rw [List.filter_map]
    congr 1
    refine List.filter_congr fun v _ => ?_
    simp only [Function.comp, renVar, swapIJ, decide_eq_decide]
    split_ifs <;> omega
  unfold Expr.inputs
  rw [rename_vars, hf, List.dedup_map_of_injective (renVar_injective swapIJ_injective), ← List.map_insertionSort
    (r := fun u v : Int × Nat × Int => u.1 ≤ v.1) (s := fun u v : Int × Nat × Int => u.1 ≤ v.1) (renVar swapIJ) _
      (fun a _ b _ => Iff.rfl), List.map_map, List.map_map]
  refine List.map_congr_left fun v hv => ?_
  have hc : v.2.2 = 0 ∨ v.2.2 = 1 ∨ v.2.2 = 2 := by
    have := (List.mem_insertionSort _).mp hv
    simpa using (List.mem_filter.mp (List.mem_dedup.mp this)).2
  simp only [Function.comp, renVar, swapIJ, swapInfo]
  rcases hc with h | h | h <;> simp [h]

theorem swap_varsOf (vars : List VarInfo) : varsOf (vars.map swapInfo) 1 = (varsOf vars 0).map swapInfo ∧
    varsOf (vars.map swapInfo) 0 = (varsOf vars 1).map swapInfo ∧
    varsOf (vars.map swapInfo) 2 = (varsOf vars 2).map swapInfo := by
  unfold varsOf
  refine ⟨?_, ?_, ?_⟩ <;>
  · rw [List.filter_map]
    congr 1
    refine List.filter_congr fun v _ => ?_
    simp only [Function.comp, swapInfo]
    refine decide_eq_decide.mpr ?_
    by_cases a : v.cat = 0
    · simp [a]
    · by_cases b : v.cat = 1
      · simp [b]
      · simp only [a, b, if_false]
        try omega

theorem swap_nminargs (e : Expr) : (e.rename swapIJ).nminargs = e.nminargs := by
  simp only [Expr.nminargs, swap_inds]

theorem swap_table (e : Expr) (t : Nat → Option (Nat → ℝ)) : (e.rename swapIJ).table t = e.table t := by
  unfold Expr.table
  rw [swap_nminargs, swap_inputs]
  refine List.map_congr_left fun p _ => ?_
  rw [List.find?_map]
  cases h : e.inputs.find? ((fun v => decide (v.ind = p)) ∘ swapInfo) with
  | none =>
    have : e.inputs.find? (fun v => decide (v.ind = p)) = none := h
    simp [this]
  | some v =>
    have : e.inputs.find? (fun v => decide (v.ind = p)) = some v := h
    simp [this, swapInfo]

variable {V : Type}

theorem swap_directTable (vars : List VarInfo) {tagI : Nat} (ht : tagI < 2) (args : Nat → Mem V) (i j : Nat) :
    directTable (vars.map swapInfo) (1 - tagI) args i j = directTable vars tagI args i j := by
  obtain ⟨h1, h0, h2⟩ := swap_varsOf vars
  unfold directTable
  obtain rfl | rfl : tagI = 0 ∨ tagI = 1 := by omega
  all_goals
    simp only [Nat.sub_zero, Nat.sub_self, h0, h1, h2, List.foldl_map]
    rfl

theorem swap_ptable (vars : List VarInfo) {tagI : Nat} (ht : tagI < 2) (xi yj pp : Mem V) :
    table (vars.map swapInfo) (1 - tagI) xi yj pp = table vars tagI xi yj pp := by
  obtain ⟨h1, h0, h2⟩ := swap_varsOf vars
  unfold table
  obtain rfl | rfl : tagI = 0 ∨ tagI = 1 := by omega
  all_goals
    simp only [Nat.sub_zero, Nat.sub_self, h0, h1, h2, List.foldl_map]
    rfl

theorem swap_loadVars (vs : List VarInfo) (args : Nat → Mem V) (row : Nat) (xloc : Mem V) :
    loadVars (vs.map swapInfo) args row xloc = loadVars vs args row xloc := by
  unfold loadVars
  rw [List.foldl_map]
  rfl

theorem swap_sumDims (vs : List VarInfo) : sumDims (vs.map swapInfo) = sumDims vs := by
  unfold sumDims
  rw [List.map_map]
  rfl

theorem swap_gpuLoadTile (vs : List VarInfo) : gpuLoadTile (V := V) (vs.map swapInfo) = gpuLoadTile vs := by
  funext args B ny tile ts yj
  unfold gpuLoadTile
  simp only [swap_sumDims]
  have : loadVars (vs.map swapInfo) args = loadVars vs args := funext fun r => funext fun x => swap_loadVars vs args r x
  rw [this]

theorem swap_gpuTiles (S : Scheme V) (vs : List VarInfo) (args : Nat → Mem V) (Fs : Mem V → Mem V) (B ny : Nat)
    (ord : Nat → List Nat) (fuel jstart tile : Nat) (yj : Mem V) (s : Mem V × Mem V) :
    gpuTiles S (vs.map swapInfo) args Fs B ny ord fuel jstart tile yj s =
      gpuTiles S vs args Fs B ny ord fuel jstart tile yj s := by
  induction fuel generalizing jstart tile yj s with
  | zero => rfl
  | succ n ih => simp only [gpuTiles, swap_gpuLoadTile, swap_sumDims, ih]

theorem swap_gpu1DThread (R : Red V) (S : Scheme V) (ev : (Nat → Option (Mem V)) → Mem V) (vars : List VarInfo)
    {tagI : Nat} (ht : tagI < 2) (B ny : Nat) (args : Nat → Mem V) (ord : Nat → List Nat) (junk : Nat → Mem V) (i : Nat) :
    gpu1DThread R S ev (vars.map swapInfo) (1 - tagI) B ny args ord junk i =
      gpu1DThread R S ev vars tagI B ny args ord junk i := by
  funext outi
  unfold gpu1DThread
  obtain ⟨h1, h0, h2⟩ := swap_varsOf vars
  have ha : varsOf (vars.map swapInfo) (1 - tagI) = (varsOf vars tagI).map swapInfo := by
    obtain rfl | rfl : tagI = 0 ∨ tagI = 1 := by omega
    exacts [h1, h0]
  have hb : varsOf (vars.map swapInfo) (1 - (1 - tagI)) = (varsOf vars (1 - tagI)).map swapInfo := by
    obtain rfl | rfl : tagI = 0 ∨ tagI = 1 := by omega
    exacts [h0, h1]
  simp only [ha, hb, h2, swap_loadVars, swap_gpuTiles, swap_ptable vars ht]

/-- The problem with `i` and `j` exchanged has the same executions. -/
theorem exec_swap {R : Red V} {S : Scheme V} {P Q : Problem V} (ht : P.tagI < 2) (hev : Q.ev = P.ev)
    (hv : Q.vars = P.vars.map swapInfo) (hq : Q.tagI = 1 - P.tagI) (hM : Q.M = P.N) (hN : Q.N = P.M)
    (ha : Q.args = P.args) {out out' : Mem V} (h : Exec R S P out out') : Exec R S Q out out' := by
  have hx : Q.nx = P.nx ∧ Q.ny = P.ny := by
    unfold Problem.nx Problem.ny launchSizes
    rw [hq, hM, hN]
    obtain h | h : P.tagI = 0 ∨ P.tagI = 1 := by omega
    all_goals simp [h]
  cases h with
  | cpu accJ tmpJ rows hrows =>
    have := Exec.cpu (R := R) (S := S) (P := Q) (out := out) accJ tmpJ rows (hx.1 ▸ hrows)
    unfold cpuConv at this ⊢
    simp only [hev, hv, hq, hx.2, ha, swap_directTable P.vars ht] at this
    exact this
  | gpu1D B hB ord hord junk sched hsched =>
    have := Exec.gpu1D (R := R) (S := S) (P := Q) (out := out) B hB ord hord junk sched (hx.1 ▸ hsched)
    unfold gpu1D at this ⊢
    simp only [hev, hv, hq, hx.1, hx.2, ha, swap_gpu1DThread R S P.ev P.vars ht] at this
    exact this

/-- **C74**, exchange of `i` and `j`, formulas: the expression of the user with `i` and `j` exchanged is run by the
same formula with `i` and `j` exchanged, also after `Factorize` or `AutoFactorize`. -/
theorem C74_runs {t : Term} {e : Expr} (h : Runs t e) : Runs (t.rename swapIJ) (e.rename swapIJ) := by
  obtain ⟨n, e₀, h, h'⟩ := h
  refine ⟨n, e₀.rename swapIJ, by rw [C74_build swapIJ_injective, h]; rfl, ?_⟩
  rcases h' with rfl | ⟨g, rfl⟩ | ⟨m, h'⟩
  · exact .inl rfl
  · exact .inr (.inl ⟨g.rename swapIJ, swap_factorize _ _⟩)
  · exact .inr (.inr ⟨m, by rw [swap_autoFactorize, h']; rfl⟩)

/-- **C74**, exchange of `i` and `j`, whole calls: reducing the formula along one axis, on the CPU or on the GPU, has
exactly the same possible outputs as reducing the formula where the variables indexed by `i` are indexed by `j` and
conversely along the other axis. This holds for every reduction and every scheme, whatever the machine numbers `V` and the
functions `M` of the C library are: the two results are the same to the last bit. Each side has its uninitialised memory
(`junk`), which is that of the other side under other names. -/
theorem C74_call (enc : ℝ → V) (dec : V → ℝ) (M : CMath) (junk : Expr → Nat → ℝ) (e : Expr) {tagI : Nat} (ht : tagI < 2)
    (m n : Nat) (args : Nat → Mem V) (R : Red V) (S : Scheme V) (out out' : Mem V) :
    Exec R S ((e.rename swapIJ).call enc dec M junk (1 - tagI) n m args) out out' ↔
      Exec R S (e.call enc dec M (fun e => junk (e.rename swapIJ)) tagI m n args) out out' := by
  have hev : ((e.rename swapIJ).call enc dec M junk (1 - tagI) n m args).ev =
      (e.call enc dec M (fun e => junk (e.rename swapIJ)) tagI m n args).ev := by
    funext t k
    simp only [Expr.call, swap_table, code_swap M junk _ e (le_refl _), newArr_swap]
  have hs : ∀ v ∈ e.inputs, swapInfo (swapInfo v) = v := by
    rintro ⟨i, d, c⟩ -
    simp only [swapInfo, VarInfo.mk.injEq, true_and]
    by_cases a : c = 0
    · simp [a]
    · by_cases b : c = 1
      · simp [b]
      · simp [a, b]
  constructor
  · refine exec_swap (by simp only [Expr.call]; omega) hev.symm ?_ (by simp only [Expr.call]; omega) rfl rfl rfl
    simp only [Expr.call]
    rw [swap_inputs, List.map_map]
    exact ((List.map_congr_left hs).trans (List.map_id _)).symm
  · exact exec_swap ht hev (swap_inputs e) rfl rfl rfl rfl

/-- For a Gaussian kernel the transposed formula is that of the other axis. -/
example (m n : Nat) (args : Nat → Mem ℝ) (M : CMath) (junk : Expr → Nat → ℝ) (out out' : Mem ℝ) :
    let k := fun a b : Int => Expr.un .exp (.un .minus (.un .sum (.un .square (.bin .sub (.var 0 3 a) (.var 1 3 b)))))
    Exec (sumRed 1) (directScheme (sumRed 1)) ((k 1 0).call id id M junk 1 n m args) out out' ↔
    Exec (sumRed 1) (directScheme (sumRed 1))
      ((k 0 1).call id id M (fun e => junk (e.rename swapIJ)) 0 m n args) out out' :=
  C74_call id id M junk (.un .exp (.un .minus (.un .sum (.un .square (.bin .sub (.var 0 3 0) (.var 1 3 1)))))) (tagI := 0)
    (by omega) m n args _ _ out out'

end Verif
