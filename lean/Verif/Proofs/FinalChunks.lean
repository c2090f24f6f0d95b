import Mathlib.Algebra.BigOperators.Intervals
import Verif.Model.FinalChunks
import Verif.Proofs.ChunkKernel

/-!
# The kernel for scalar times vector: proofs
-/

namespace Verif

open Finset

/-! ## A launch is a list of rows -/

theorem launch_rows {V : Type} {B nx d : Nat} (hB : 0 < B) (hd : 0 < d) (g : Nat → Nat → Mem V → Mem V)
    (hg : ∀ b i o o', (∀ q < d, o q = o' q) → ∀ p < d, g b i o p = g b i o' p)
    (hg' : ∀ b i o p, d ≤ p → g b i o p = o p) (sched : List (Nat × Nat)) (hs : Complete1D B nx sched) (out : Mem V) :
    let res := sched.foldl (fun out bt =>
      let i := bt.1 * B + bt.2
      if i < nx then onSlice (i * d) (g bt.1 i) out else out) out
    (∀ i < nx, ∀ k < d, res (i * d + k) = g (i / B) i (out.shift (i * d)) k) ∧
    ∀ p, nx * d ≤ p → res p = out p := by
  let rows := (sched.filter (fun bt => decide (bt.1 * B + bt.2 < nx)))
  have hfold : sched.foldl (fun out bt =>
      let i := bt.1 * B + bt.2
      if i < nx then onSlice (i * d) (g bt.1 i) out else out) out =
      (rows.map (fun bt => bt.1 * B + bt.2)).foldl (fun out i => onSlice (i * d) (g (i / B) i) out) out := by
    have := foldl_if_filter (fun bt : Nat × Nat => decide (bt.1 * B + bt.2 < nx))
      (fun out bt => onSlice ((bt.1 * B + bt.2) * d) (g bt.1 (bt.1 * B + bt.2)) out) sched out
    simp only [decide_eq_true_eq] at this
    dsimp only
    rw [this, List.foldl_map]
    apply foldl_congr_mem
    intro o bt hbt
    have hm := (List.mem_filter.mp hbt).1
    have := ((hs.mem bt.1 bt.2).mp hm).2
    have : (bt.1 * B + bt.2) / B = bt.1 := by
      rw [Nat.mul_comm, Nat.mul_add_div hB, Nat.div_eq_of_lt this, Nat.add_zero]
    rw [this]
  have hnd : (rows.map (fun bt => bt.1 * B + bt.2)).Nodup := by
    apply (List.nodup_map_iff_inj_on (hs.nodup.filter _)).mpr
    intro x hx y hy he
    have hx' := ((hs.mem x.1 x.2).mp (List.mem_filter.mp hx).1).2
    have hy' := ((hs.mem y.1 y.2).mp (List.mem_filter.mp hy).1).2
    have e1 : x.1 = y.1 := by
      have := congrArg (· / B) he
      simp only [Nat.mul_comm _ B, Nat.mul_add_div hB, Nat.div_eq_of_lt hx',
        Nat.div_eq_of_lt hy', Nat.add_zero] at this
      exact this
    refine Prod.ext e1 ?_
    rw [e1] at he
    omega
  have hmem : ∀ i, i ∈ rows.map (fun bt => bt.1 * B + bt.2) ↔ i < nx := by
    intro i
    constructor
    · intro hi
      obtain ⟨bt, hbt, rfl⟩ := List.mem_map.mp hi
      simpa using (List.mem_filter.mp hbt).2
    · intro hi
      refine List.mem_map.mpr ⟨(i / B, i % B), ?_, ?_⟩
      · refine List.mem_filter.mpr ⟨(hs.mem _ _).mpr ⟨gridSize_covers hB hi, Nat.mod_lt _ hB⟩, ?_⟩
        simp only [decide_eq_true_eq]
        rw [Nat.mul_comm, Nat.div_add_mod]; exact hi
      · simp only
        rw [Nat.mul_comm, Nat.div_add_mod]
  intro res
  have hres : res = _ := hfold
  obtain ⟨h1, h2⟩ := foldl_onSlice_slices (fun i => g (i / B) i) (fun i => hg _ i) (fun i => hg' _ i) _ hnd out
  rw [hres]
  refine ⟨fun i hi k hk => h1 i ((hmem i).mpr hi) k hk, fun p hp => ?_⟩
  have := h2 (p / d) (fun h => by
    have := (hmem _).mp h
    have := Nat.div_lt_iff_lt_mul hd |>.mp this
    omega) (p % d) (Nat.mod_lt _ hd)
  rwa [Nat.mul_comm, Nat.div_add_mod] at this

/-! ## One chunk -/

theorem forRange_add (o d : Nat) (a : Nat → ℝ) (x : Mem ℝ) (p : Nat) :
    forRange d (fun k x => x.set (o + k) (x (o + k) + a k)) x p =
      if o ≤ p ∧ p < o + d then x p + a (p - o) else x p := by
  induction d generalizing p with
  | zero => simp
  | succ d ih =>
    rw [forRange_succ, Mem.set_apply, ih, ih]
    by_cases hp : p = o + d
    · subst hp
      rw [if_pos rfl, if_neg (by omega), if_pos (by omega), Nat.add_sub_cancel_left]
    · rw [if_neg hp]
      by_cases h : o ≤ p ∧ p < o + d
      · rw [if_pos h, if_pos (by omega)]
      · rw [if_neg h, if_neg (by omega)]

theorem acc_sum (n d : Nat) (a : Nat → Nat → ℝ) (x : Mem ℝ) {k : Nat} (hk : k < d) :
    forRange n (fun t x => forRange d (fun k x => x.set k (x k + a t k)) x) x k = x k + ∑ t ∈ range n, a t k := by
  induction n with
  | zero => simp
  | succ n ih =>
    have := forRange_add 0 d (a n) (forRange n (fun t x => forRange d (fun k x => x.set k (x k + a t k)) x) x) k
    simp only [Nat.zero_add, Nat.sub_zero] at this
    rw [forRange_succ, this, if_pos ⟨Nat.zero_le _, hk⟩, ih, sum_range_succ, add_assoc]

section

variable (K : FinalCall)

/-- The product with a row of `b`, without the factor. -/
def FinalCall.brow (j p : Nat) : ℝ := K.args K.b.ind (j * K.b.dim + p)

theorem finalSub_spec {d chunk tile : Nat} (hd : d ≤ dimfinalchunk) {ts : List Nat}
    (hts : ts.Perm (List.range K.B)) (acc : Mem ℝ) (m : FinalMem) :
    (finalSub K d tile (tile * K.B) ts chunk acc m).fout = m.fout ∧
    ∀ p, (finalSub K d tile (tile * K.B) ts chunk acc m).out p =
      if chunk * dimfinalchunk ≤ p ∧ p < chunk * dimfinalchunk + d then
        m.out p + ∑ t ∈ range (min K.B (K.ny - tile * K.B)), K.brow (tile * K.B + t) p * m.fout t
      else m.out p := by
  refine ⟨rfl, fun p => ?_⟩
  unfold finalSub
  dsimp only
  rw [forRange_add]
  split
  · next h =>
    rw [acc_sum _ _ (fun t k => _ * m.fout t) _ (by omega : p - chunk * dimfinalchunk < d), vectFill_apply,
      if_pos (by omega), zero_add]
    congr 1
    refine sum_congr rfl fun t ht => ?_
    rw [Finset.mem_range] at ht
    congr 1
    let G : ChunkVars := ⟨[], [K.b]⟩
    have hl := fun j => loadVars_slice (G.piece d)
      (fun q r => K.args q (j * K.b.dim + chunk * dimchunk + r)) 0 0 dimfinalchunk
      (by rw [sumDims_piece]; show 0 + 1 * d ≤ _; omega)
    have h0 : ∀ (f : Mem ℝ → Mem ℝ), onSlice 0 f = f := by
      intro f; funext x p; rw [onSlice_apply, if_pos (Nat.zero_le _)]
      simp only [Nat.zero_add, Nat.sub_zero]
    simp only [h0] at hl
    have := tile_rows (d := dimfinalchunk) (B := K.B) (ny := K.ny) (tile := tile)
      (fun t => loadChunks (G.chunked.map (·.ind)) d K.b.dim K.args chunk (tile * K.B + t))
      (fun t => by rw [loadChunks_eq]; exact (hl _).1) (fun t => by rw [loadChunks_eq]; exact (hl _).2) ts
      (hts.nodup_iff.mpr List.nodup_range) m.yj (t := t) (hts.mem_iff.mpr (List.mem_range.mpr (by omega))) (by omega)
      (k := p - chunk * dimfinalchunk) (by omega)
    rw [Mem.shift_apply] at this
    refine this.trans ?_
    rw [loadChunks_eq]
    have hp := loadVars_spec (fun q r => K.args q ((tile * K.B + t) * K.b.dim + chunk * dimchunk + r)) 0 []
      ⟨K.b.ind, d, K.b.cat⟩ [] (m.yj.shift (t * dimfinalchunk)) (w := p - chunk * dimfinalchunk)
      (by show _ < d; omega)
    rw [sumDims_nil, Nat.zero_add] at hp
    refine hp.trans ?_
    show K.args K.b.ind _ = K.args K.b.ind _
    congr 1
    rw [Nat.zero_mul, Nat.zero_add, show dimchunk = dimfinalchunk from rfl]
    omega
  · rfl

/-! ## One tile -/

variable {K} {xi pp : Mem ℝ} {g : Nat → ℝ}

/-- The value of `F` at `j`, for all buffers with the right variables. -/
def FinalCall.Value (K : FinalCall) (xi pp : Mem ℝ) (g : Nat → ℝ) : Prop :=
  ∀ j < K.ny, ∀ yj, Holds (K.vars (1 - K.tagI)) K.args j yj → runCode K.M K.junk K.F (K.table xi yj pp) 0 = g j

theorem FinalCall.dims (hb : 0 < K.b.dim) : K.dimLast ≤ dimfinalchunk ∧
    (K.nchunks - 1) * dimfinalchunk + K.dimLast = K.b.dim := by
  unfold FinalCall.dimLast FinalCall.nchunks dimfinalchunk
  omega

/-- One tile, when `g` is what the code of `F` gives on the memory. -/
theorem finalTile_code (hb : 0 < K.b.dim) {ord : Nat → List Nat}
    (hord : ∀ ph, (ord ph).Perm (List.range K.B)) (acc : Nat → Mem ℝ) (tile : Nat) (m : FinalMem)
    (hv : ∀ t < min K.B (K.ny - tile * K.B), runCode K.M K.junk K.F (K.table xi (Mem.shift ((ord 0).foldl (fun yj t =>
      if tile * K.B + t < K.ny then onSlice (t * sumDims (K.vars (1 - K.tagI)))
        (loadVars (K.vars (1 - K.tagI)) K.args (tile * K.B + t)) yj else yj) m.yj)
        (t * sumDims (K.vars (1 - K.tagI)))) pp) 0 = g (tile * K.B + t)) (p : Nat) :
    (finalTile K ord acc xi pp (tile * K.B) tile m).out p = if p < K.b.dim then
      m.out p + ∑ t ∈ range (min K.B (K.ny - tile * K.B)), K.brow (tile * K.B + t) p * g (tile * K.B + t)
      else m.out p := by
  unfold finalTile
  extract_lets dimy yj fout m1 m2
  obtain ⟨hd1, hd2⟩ := FinalCall.dims (K := K) hb
  have hfout : ∀ t < min K.B (K.ny - tile * K.B), fout t = g (tile * K.B + t) := by
    intro t ht
    have := forRange_set (min K.B (K.ny - tile * K.B))
      (fun t _ => runCode K.M K.junk K.F (K.table xi (yj.shift (t * dimy)) pp) 0) m.fout t
    refine this.trans ?_
    rw [if_pos ht]
    exact hv t ht
  have hm2 : m2.fout = fout ∧ ∀ p, m2.out p = if p < (K.nchunks - 1) * dimfinalchunk then
      m.out p + ∑ t ∈ range (min K.B (K.ny - tile * K.B)), K.brow (tile * K.B + t) p * fout t else m.out p := by
    refine forRange_inv (P := fun c (m' : FinalMem) => m'.fout = fout ∧ ∀ p, m'.out p =
      if p < c * dimfinalchunk then
        m.out p + ∑ t ∈ range (min K.B (K.ny - tile * K.B)), K.brow (tile * K.B + t) p * fout t else m.out p)
      (K.nchunks - 1) _ _ ⟨rfl, fun p => by simp [m1]⟩ ?_
    intro c m' hc ⟨h1, h2⟩
    obtain ⟨s1, s2⟩ := finalSub_spec K (d := dimfinalchunk) (chunk := c) (tile := tile) le_rfl (hord (1 + c))
      (acc c) m'
    refine ⟨s1.trans h1, fun p => ?_⟩
    rw [s2, h2, h1, Nat.succ_mul]
    by_cases hp : p < c * dimfinalchunk
    · rw [if_neg (by omega), if_pos hp, if_pos (by omega)]
    · rw [if_neg hp]
      by_cases hp' : p < c * dimfinalchunk + dimfinalchunk
      · rw [if_pos (by omega), if_pos hp']
      · rw [if_neg (by omega), if_neg hp']
  obtain ⟨-, s2⟩ := finalSub_spec K (chunk := K.nchunks - 1) (tile := tile) hd1 (hord K.nchunks) (acc (K.nchunks - 1)) m2
  rw [s2, hm2.1, hm2.2, hd2]
  have hsum : ∑ t ∈ range (min K.B (K.ny - tile * K.B)), K.brow (tile * K.B + t) p * fout t =
      ∑ t ∈ range (min K.B (K.ny - tile * K.B)), K.brow (tile * K.B + t) p * g (tile * K.B + t) :=
    sum_congr rfl fun t ht => by rw [hfout t (Finset.mem_range.mp ht)]
  rw [hsum]
  by_cases hp : p < (K.nchunks - 1) * dimfinalchunk
  · rw [if_neg (by omega), if_pos hp, if_pos (by omega)]
  · rw [if_neg hp]
    by_cases hp' : p < K.b.dim
    · rw [if_pos (by omega), if_pos hp']
    · rw [if_neg (by omega), if_neg hp']

theorem finalTile_spec (hv : K.Value xi pp g) (hb : 0 < K.b.dim) {ord : Nat → List Nat}
    (hord : ∀ ph, (ord ph).Perm (List.range K.B)) (acc : Nat → Mem ℝ) (tile : Nat) (m : FinalMem) (p : Nat) :
    (finalTile K ord acc xi pp (tile * K.B) tile m).out p = if p < K.b.dim then
      m.out p + ∑ t ∈ range (min K.B (K.ny - tile * K.B)), K.brow (tile * K.B + t) p * g (tile * K.B + t)
      else m.out p := by
  refine finalTile_code hb hord acc tile m (fun t ht => ?_) p
  refine hv _ (by omega) _ (holds_of_eq_loadVars (o := m.yj.shift (t * sumDims (K.vars (1 - K.tagI)))) fun q hq => ?_)
  exact tile_rows (d := sumDims (K.vars (1 - K.tagI))) (B := K.B) (ny := K.ny) (tile := tile)
    (fun t => loadVars (K.vars (1 - K.tagI)) K.args (tile * K.B + t))
    (fun i o o' _ p hp => loadVars_in K.args _ _ o o' hp) (fun i o p hp => loadVars_out K.args _ _ o hp)
    (ord 0) ((hord 0).nodup_iff.mpr List.nodup_range) m.yj ((hord 0).mem_iff.mpr (List.mem_range.mpr (by omega)))
    (by omega) hq

theorem sum_tile (f : Nat → ℝ) (a B n : Nat) (_h : a < n) :
    ∑ t ∈ range (min B (n - a)), f (a + t) + ∑ j ∈ Ico (a + B) n, f j = ∑ j ∈ Ico a n, f j := by
  by_cases hB : a + B ≤ n
  · rw [← sum_Ico_consecutive f (by omega : a ≤ a + B) hB, sum_Ico_eq_sum_range f a (a + B)]
    congr 2
    congr 1
    omega
  · rw [Ico_eq_empty (by omega), sum_empty, add_zero, sum_Ico_eq_sum_range]
    congr 2
    omega

theorem finalTiles_spec (hv : K.Value xi pp g) (hb : 0 < K.b.dim) (hB : 0 < K.B) {ord : Nat → Nat → List Nat}
    (hord : ∀ tile ph, (ord tile ph).Perm (List.range K.B)) (acc : Nat → Nat → Mem ℝ) (fuel tile : Nat)
    (hfuel : K.ny ≤ tile * K.B + fuel) (m : FinalMem) (p : Nat) :
    (finalTiles K ord acc xi pp fuel (tile * K.B) tile m).out p = if p < K.b.dim then
      m.out p + ∑ j ∈ Ico (tile * K.B) K.ny, K.brow j p * g j else m.out p := by
  induction fuel generalizing tile m with
  | zero =>
    rw [Ico_eq_empty (by omega), sum_empty, add_zero, ite_self]
    rfl
  | succ fuel ih =>
    unfold finalTiles
    by_cases h : tile * K.B < K.ny
    · rw [if_pos h]
      have := ih (tile + 1) (by rw [Nat.succ_mul]; omega)
        (finalTile K (ord tile) (acc tile) xi pp (tile * K.B) tile m)
      rw [Nat.succ_mul] at this
      rw [this, finalTile_spec hv hb (hord tile)]
      by_cases hp : p < K.b.dim
      · rw [if_pos hp, if_pos hp, if_pos hp, add_assoc, sum_tile (fun j => K.brow j p * g j) _ _ _ h]
      · rw [if_neg hp, if_neg hp, if_neg hp]
    · rw [if_neg h, Ico_eq_empty (by omega), sum_empty, add_zero, ite_self]

end

/-! ## The launch -/

/-- Each row `i` of the output is `Σ_j g i j * b_j`, when `g i j` is the value of the internal formula, and nothing
else is written. -/
theorem gpuFinal_correct {K : FinalCall} (hb : 0 < K.b.dim) (hB : 0 < K.B) {nx : Nat} {g : Nat → Nat → ℝ}
    (hv : ∀ i < nx, ∀ xi pp, Holds (K.vars K.tagI) K.args i xi → Holds (K.vars 2) K.args 0 pp → K.Value xi pp (g i))
    {ord : Nat → Nat → Nat → List Nat} (hord : ∀ b tile ph, (ord b tile ph).Perm (List.range K.B))
    (junk : Nat → Nat → Mem ℝ) (acc : Nat → Nat → Nat → Mem ℝ) {sched : List (Nat × Nat)}
    (hs : Complete1D K.B nx sched) (out : Mem ℝ) :
    (∀ i < nx, ∀ k < K.b.dim, gpuFinal K nx ord junk acc sched out (i * K.b.dim + k) =
      ∑ j ∈ range K.ny, K.brow j k * g i j) ∧
    ∀ p, nx * K.b.dim ≤ p → gpuFinal K nx ord junk acc sched out p = out p := by
  have hz : ∀ (o : Mem ℝ) p, forRange K.b.dim (fun k out => out.set k 0) o p = if p < K.b.dim then 0 else o p := by
    intro o p
    have := forRange_set K.b.dim (fun _ _ => (0 : ℝ)) o p
    simpa only [Nat.mul_one] using this
  have hth : ∀ i < nx, ∀ b o p, finalThread K (ord b) (junk i) (acc i) i o p =
      if p < K.b.dim then ∑ j ∈ range K.ny, K.brow j p * g i j else o p := by
    intro i hi b o p
    unfold finalThread
    have := finalTiles_spec (hv i hi (loadVars (K.vars K.tagI) K.args i (junk i 1))
      (loadVars (K.vars 2) K.args 0 (junk i 0)) (holds_of_eq_loadVars fun _ _ => rfl)
      (holds_of_eq_loadVars fun _ _ => rfl)) hb hB (hord b) (acc i) K.ny 0 (by omega)
      ⟨junk i 2, junk i 3, forRange K.b.dim (fun k out => out.set k 0) o⟩ p
    rw [Nat.zero_mul] at this
    rw [this]
    dsimp only
    rw [hz]
    by_cases hp : p < K.b.dim
    · rw [if_pos hp, if_pos hp, if_pos hp, zero_add, range_eq_Ico]
    · rw [if_neg hp, if_neg hp, if_neg hp]
  -- outside of the rows the threads do nothing
  let th : Nat → Nat → Mem ℝ → Mem ℝ := fun b i o =>
    if i < nx then finalThread K (ord b) (junk i) (acc i) i o else o
  have he : gpuFinal K nx ord junk acc sched out = sched.foldl (fun out bt =>
      let i := bt.1 * K.B + bt.2
      if i < nx then onSlice (i * K.b.dim) (th bt.1 i) out else out) out := by
    unfold gpuFinal
    refine foldl_congr_mem _ _ fun o bt _ => ?_
    dsimp only
    split
    · next h =>
      have : th bt.1 (bt.1 * K.B + bt.2) = finalThread K (ord bt.1) (junk (bt.1 * K.B + bt.2))
          (acc (bt.1 * K.B + bt.2)) (bt.1 * K.B + bt.2) := funext fun o => if_pos h
      rw [this]
    · rfl
  obtain ⟨h1, h2⟩ := launch_rows (nx := nx) hB hb th
    (fun b i o o' ho p hp => by
      dsimp only [th]
      split
      · next h => rw [hth i h, hth i h, if_pos hp, if_pos hp]
      · exact ho p hp)
    (fun b i o p hp => by
      dsimp only [th]
      split
      · next h => rw [hth i h, if_neg (by omega)]
      · rfl) sched hs out
  rw [he]
  refine ⟨fun i hi k hk => (h1 i hi k hk).trans ?_, h2⟩
  dsimp only [th]
  rw [if_pos hi, hth i hi, if_pos hk]

/-! ## The variables of the formula and of its factor -/

theorem eq_of_sorted {l₁ l₂ : List VarInfo} (h1 : l₁.Pairwise fun u v => u.ind < v.ind)
    (h2 : l₂.Pairwise fun u v => u.ind < v.ind) (h : ∀ v, v ∈ l₁ ↔ v ∈ l₂) : l₁ = l₂ := by
  induction l₁ generalizing l₂ with
  | nil =>
    cases l₂ with
    | nil => rfl
    | cons a l => exact absurd ((h a).mpr (List.mem_cons_self ..)) (by simp)
  | cons a l ih =>
    cases l₂ with
    | nil => exact absurd ((h a).mp (List.mem_cons_self ..)) (by simp)
    | cons b l' =>
      obtain ⟨ha, hl⟩ := List.pairwise_cons.mp h1
      obtain ⟨hb, hl'⟩ := List.pairwise_cons.mp h2
      have hab : a = b := by
        rcases List.mem_cons.mp ((h a).mp (List.mem_cons_self ..)) with h' | h'
        · exact h'
        · rcases List.mem_cons.mp ((h b).mpr (List.mem_cons_self ..)) with h'' | h''
          · exact h''.symm
          · have := hb _ h'
            have := ha _ h''
            omega
      subst hab
      congr 1
      refine ih hl hl' fun v => ⟨fun hv => ?_, fun hv => ?_⟩
      · rcases List.mem_cons.mp ((h v).mp (List.mem_cons_of_mem _ hv)) with rfl | h'
        · exact absurd (ha _ hv) (lt_irrefl _)
        · exact h'
      · rcases List.mem_cons.mp ((h v).mpr (List.mem_cons_of_mem _ hv)) with rfl | h'
        · exact absurd (hb _ hv) (lt_irrefl _)
        · exact h'

theorem inputs_sorted {e : Expr} (h : GoodVars e.vars) : e.inputs.Pairwise fun u v => u.ind < v.ind := by
  have hn := (inputs_wf h).nodup
  have hs : e.inputs.Pairwise fun u v => u.ind ≤ v.ind := by
    unfold Expr.inputs
    rw [List.pairwise_map]
    have := List.pairwise_insertionSort (fun u v : Int × Nat × Int => u.1 ≤ v.1)
      (e.vars.filter fun v => v.2.2 = 0 ∨ v.2.2 = 1 ∨ v.2.2 = 2).dedup
    exact this.imp fun h => Int.toNat_le_toNat h
  rw [List.Nodup, List.pairwise_map] at hn
  exact (hs.and hn).imp fun ⟨h1, h2⟩ => lt_of_le_of_ne h1 h2

theorem mem_varsOf {vs : List VarInfo} {c : Nat} {v : VarInfo} : v ∈ varsOf vs c ↔ v ∈ vs ∧ v.cat = c := by
  simp [varsOf]

/-- The variables of `F` come first among those of `F * b`, when `b` has the last position or is a variable of `F`. -/
theorem varsOf_prefix {e F : Expr} {b : Int × Nat × Int} (hgood : GoodVars e.vars)
    (hmem : ∀ v, v ∈ e.vars ↔ v ∈ F.vars ∨ v = b) {c : Nat}
    (hc : b ∈ F.vars ∨ b.2.2 ≠ c ∨ ∀ v ∈ F.vars, v.2.2 = c → v.1 < b.1) :
    ∃ post, varsOf e.inputs c = varsOf F.inputs c ++ post := by
  have hF : GoodVars F.vars := ⟨fun v hv => hgood.pos v ((hmem v).mpr (.inl hv)),
    fun v hv => hgood.cat v ((hmem v).mpr (.inl hv)),
    fun u hu v hv => hgood.unique u ((hmem u).mpr (.inl hu)) v ((hmem v).mpr (.inl hv))⟩
  have se : (varsOf e.inputs c).Pairwise fun u v => u.ind < v.ind := (inputs_sorted hgood).filter _
  have sF : (varsOf F.inputs c).Pairwise fun u v => u.ind < v.ind := (inputs_sorted hF).filter _
  have hmF : ∀ w, w ∈ varsOf F.inputs c → w ∈ varsOf e.inputs c := by
    intro w hw
    obtain ⟨h1, h2⟩ := mem_varsOf.mp hw
    obtain ⟨v, hv, h3, rfl⟩ := Expr.mem_inputs.mp h1
    exact mem_varsOf.mpr ⟨Expr.mem_inputs.mpr ⟨v, (hmem v).mpr (.inl hv), h3, rfl⟩, h2⟩
  have hme : ∀ w, w ∈ varsOf e.inputs c → w ∈ varsOf F.inputs c ∨
      ((b.2.2 = 0 ∨ b.2.2 = 1 ∨ b.2.2 = 2) ∧ b.2.2 = c ∧ w = ⟨b.1.toNat, b.2.1, b.2.2.toNat⟩) := by
    intro w hw
    obtain ⟨h1, h2⟩ := mem_varsOf.mp hw
    obtain ⟨v, hv, h3, rfl⟩ := Expr.mem_inputs.mp h1
    rcases (hmem v).mp hv with hv | rfl
    · exact .inl (mem_varsOf.mpr ⟨Expr.mem_inputs.mpr ⟨v, hv, h3, rfl⟩, h2⟩)
    · refine .inr ⟨h3, ?_, rfl⟩
      dsimp only at h2
      omega
  have heq : (∀ w, w ∈ varsOf e.inputs c → w ∈ varsOf F.inputs c) → ∃ post, varsOf e.inputs c =
      varsOf F.inputs c ++ post := fun h =>
    ⟨[], by rw [List.append_nil]; exact eq_of_sorted se sF fun w => ⟨h w, hmF w⟩⟩
  by_cases hb : b ∈ F.vars
  · refine heq fun w hw => ?_
    rcases hme w hw with h | ⟨h1, h2, rfl⟩
    · exact h
    · exact mem_varsOf.mpr ⟨Expr.mem_inputs.mpr ⟨b, hb, h1, rfl⟩, by dsimp only; omega⟩
  by_cases hbc : (b.2.2 = 0 ∨ b.2.2 = 1 ∨ b.2.2 = 2) ∧ b.2.2 = c
  · obtain ⟨hb3, hbc⟩ := hbc
    have hlt : ∀ v ∈ F.vars, v.2.2 = c → v.1 < b.1 := by
      rcases hc with h | h | h
      exacts [absurd h hb, absurd hbc h, h]
    refine ⟨[⟨b.1.toNat, b.2.1, b.2.2.toNat⟩], eq_of_sorted se ?_ fun w => ?_⟩
    · refine List.pairwise_append.mpr ⟨sF, List.pairwise_singleton _ _, fun u hu w hw => ?_⟩
      rw [List.mem_singleton] at hw
      subst hw
      obtain ⟨h1, h2⟩ := mem_varsOf.mp hu
      obtain ⟨v, hv, h3, rfl⟩ := Expr.mem_inputs.mp h1
      dsimp only at h2 ⊢
      have := hlt v hv (by omega)
      have := hF.pos v hv (by omega)
      omega
    · rw [List.mem_append, List.mem_singleton]
      constructor
      · intro hw
        rcases hme w hw with h | ⟨-, -, h⟩
        exacts [.inl h, .inr h]
      · rintro (hw | rfl)
        · exact hmF w hw
        · exact mem_varsOf.mpr ⟨Expr.mem_inputs.mpr ⟨b, (hmem b).mpr (.inr rfl), hb3, rfl⟩, by dsimp only; omega⟩
  · refine heq fun w hw => ?_
    rcases hme w hw with h | ⟨h1, h2, -⟩
    · exact h
    · exact absurd ⟨h1, h2⟩ hbc

/-- The table has the right arrays for `F`. -/
theorem final_table {e F : Expr} {b : Int × Nat × Int} (hgood : GoodVars e.vars)
    (hmem : ∀ v, v ∈ e.vars ↔ v ∈ F.vars ∨ v = b) {tagI : Nat} (ht : tagI < 2)
    (hc : ∀ c : Nat, b ∈ F.vars ∨ b.2.2 ≠ c ∨ ∀ v ∈ F.vars, v.2.2 = c → v.1 < b.1)
    {args : Nat → Mem ℝ} {i j : Nat} {xi yj pp : Mem ℝ} (hi : Holds (varsOf F.inputs tagI) args i xi)
    (hj : Holds (varsOf F.inputs (1 - tagI)) args j yj) (hp : Holds (varsOf F.inputs 2) args 0 pp)
    {env : Env} (hfree : ∀ v ∈ F.free, v.2.2 ≠ 3)
    (henv : ∀ v ∈ F.free, ∀ k < v.2.1,
      env v.1 k = args v.1.toNat (Spec.row tagI i j v.2.2.toNat * v.2.1 + k)) :
    (chunkTable id e.nminargs [(varsOf e.inputs tagI, xi), (varsOf e.inputs (1 - tagI), yj),
      (varsOf e.inputs 2, pp)]).Holds env F := by
  have hw := inputs_wf hgood
  intro v hv
  have hvF := Expr.free_vars hv
  have hve := (hmem v).mpr (.inl hvF)
  have h3 := hfree v hv
  have hcat := hgood.cat v hve
  have hpos := hgood.pos v hve h3
  refine ⟨hpos, ?_⟩
  have hnd : (((varsOf e.inputs tagI ++ (varsOf e.inputs (1 - tagI) ++ varsOf e.inputs 2))).map (·.ind)).Nodup := by
    rw [List.map_append, List.map_append]
    refine List.nodup_append.mpr ⟨varsOf_nodup hw.nodup _, List.nodup_append.mpr ⟨varsOf_nodup hw.nodup _,
      varsOf_nodup hw.nodup _, ?_⟩, ?_⟩
    · intro a ha b hb hab
      obtain ⟨u, hu, rfl⟩ := List.mem_map.mp ha
      obtain ⟨w, hw', rfl⟩ := List.mem_map.mp hb
      have := List.inj_on_of_nodup_map hw.nodup (mem_varsOf.mp hu).1 (mem_varsOf.mp hw').1 hab
      have h1 := (mem_varsOf.mp hu).2
      have h2 := (mem_varsOf.mp hw').2
      rw [this] at h1
      omega
    · intro a ha b hb hab
      obtain ⟨u, hu, rfl⟩ := List.mem_map.mp ha
      rw [← List.map_append] at hb
      obtain ⟨w, hw', rfl⟩ := List.mem_map.mp hb
      have h1 := (mem_varsOf.mp hu).2
      rcases List.mem_append.mp hw' with hw' | hw' <;>
      · have := List.inj_on_of_nodup_map hw.nodup (mem_varsOf.mp hu).1 (mem_varsOf.mp hw').1 hab
        have h2 := (mem_varsOf.mp hw').2
        rw [this] at h1
        omega
  have hlt : ∀ u ∈ varsOf e.inputs tagI ++ (varsOf e.inputs (1 - tagI) ++ varsOf e.inputs 2), u.ind < e.nminargs := by
    intro u hu
    have : u ∈ e.inputs := by
      simp only [List.mem_append, mem_varsOf] at hu
      rcases hu with h | h | h <;> exact h.1
    obtain ⟨w, hw, h', rfl⟩ := Expr.mem_inputs.mp this
    exact nminargs_lt hw (hgood.pos w hw (by omega))
  have hgroups : ∀ (x : Mem ℝ) (c r : Nat), v.2.2 = c → Spec.row tagI i j c = r →
      (varsOf e.inputs c, x) ∈ [(varsOf e.inputs tagI, xi), (varsOf e.inputs (1 - tagI), yj), (varsOf e.inputs 2, pp)] →
      Holds (varsOf F.inputs c) args r x →
      (chunkTable id e.nminargs [(varsOf e.inputs tagI, xi), (varsOf e.inputs (1 - tagI), yj),
        (varsOf e.inputs 2, pp)])[v.1.toNat]? = some (some (vec v.2.1 (env v.1))) := by
    intro x c r hvc hr hx hh
    obtain ⟨post, hpost⟩ := varsOf_prefix hgood hmem (hc c)
    have hvi : (⟨v.1.toNat, v.2.1, v.2.2.toNat⟩ : VarInfo) ∈ varsOf F.inputs c :=
      mem_varsOf.mpr ⟨Expr.mem_inputs.mpr ⟨v, hvF, by omega, rfl⟩, by dsimp only; omega⟩
    obtain ⟨pre, rest, hs⟩ := List.append_of_mem hvi
    have h1 : (varsOf e.inputs c, x).1 = pre ++ ⟨v.1.toNat, v.2.1, v.2.2.toNat⟩ :: (rest ++ post) := by
      show varsOf e.inputs c = _
      rw [hpost, hs]; simp
    have := chunkTable_get id (n := e.nminargs) (groups := [(varsOf e.inputs tagI, xi),
      (varsOf e.inputs (1 - tagI), yj), (varsOf e.inputs 2, pp)]) (by simpa using hnd) (by simpa using hlt) hx h1
    rw [this]
    refine congrArg (some ∘ some) (List.map_congr_left fun q hq => ?_)
    have hq' := List.mem_range.mp hq
    rw [henv v hv q hq']
    have := hh pre _ rest hs q hq'
    have hrow : Spec.row tagI i j v.2.2.toNat = r := by rw [← hr]; congr 1; omega
    rw [hrow]
    exact this
  rcases Nat.lt_or_ge tagI 1 with h0 | h0
  · obtain rfl : tagI = 0 := by omega
    rcases hcat with h | h | h | h
    · exact hgroups xi 0 i h (by simp [Spec.row]) (by simp) hi
    · exact hgroups yj 1 j h (by simp [Spec.row]) (by simp) hj
    · exact hgroups pp 2 0 h (by simp [Spec.row]) (by simp) hp
    · exact absurd h h3
  · obtain rfl : tagI = 1 := by omega
    rcases hcat with h | h | h | h
    · exact hgroups yj 0 j h (by simp [Spec.row]) (by simp) hj
    · exact hgroups xi 1 i h (by simp [Spec.row]) (by simp) hi
    · exact hgroups pp 2 0 h (by simp [Spec.row]) (by simp) hp
    · exact absurd h h3

/-- The kernel computes `Σ_j F(i, j) b_j`, whatever the operation between `F` and `b` is, and reads row `j` of `b`
whatever its category is. -/
theorem final_exec {e F : Expr} {p : Int} {d : Nat} {c : Int} (hparts : finalParts e = some (F, toInfo (p, d, c)))
    (hin : e.InputVars) (hmem : ∀ v, v ∈ e.vars ↔ v ∈ F.vars ∨ v = (p, d, c))
    (hlast : (p, d, c) ∈ F.vars ∨ ∀ v ∈ F.vars, v.2.2 = c → v.1 < p) (hw : F.WF) (hf : F.FactFree) (hF : F.dim = 1)
    (hd : 0 < d) {tagI m n : Nat} (ht : tagI < 2) {M : CMath} (hM : M.Exact) {cjunk : Expr → Nat → ℝ}
    {args : Nat → Mem ℝ} {env : Nat → Nat → Env}
    (hdef : ∀ i < Spec.outRows tagI m n, ∀ j < Spec.redRows tagI m n, F.Def (env i j))
    (hr : ∀ i < Spec.outRows tagI m n, ∀ j < Spec.redRows tagI m n, EnvReads id F tagI args i j (env i j))
    {out out' : Mem ℝ} (he : ExecFinal M cjunk e tagI m n args out out') :
    (∀ i < Spec.outRows tagI m n, ∀ k < d, out' (i * d + k) =
      ∑ j ∈ range (Spec.redRows tagI m n), args p.toNat (j * d + k) * F.val (env i j) 0) ∧
    ∀ q, Spec.outRows tagI m n * d ≤ q → out' q = out q := by
  obtain ⟨F', b, hp', B, hB, ord, hord, junk, acc, sched, hsched⟩ := he
  rw [hparts] at hp'
  cases hp'
  have hgv : GoodVars e.vars := ⟨fun v hv _ => hin.pos v hv, fun v hv => by have := hin.cat v hv; omega,
    fun u hu v hv _ _ => hin.unique u hu v hv⟩
  have hnx : (launchSizes tagI m n).1 = Spec.outRows tagI m n := by
    unfold launchSizes Spec.outRows
    by_cases h : tagI = 1
    · simp [h]
    · have : tagI = 0 := by omega
      simp [this]
  have hny : (launchSizes tagI m n).2 = Spec.redRows tagI m n := by
    unfold launchSizes Spec.redRows
    by_cases h : tagI = 1
    · simp [h]
    · have : tagI = 0 := by omega
      simp [this]
  rw [hnx] at hsched ⊢
  rw [hny]
  refine gpuFinal_correct (K := ⟨e, F, toInfo (p, d, c), tagI, M, cjunk, args, B, Spec.redRows tagI m n⟩) hd hB
    (g := fun i j => F.val (env i j) 0) ?_ hord junk acc ⟨?_, fun b t => ?_⟩ out
  · intro i hi xi pp hxi hpp j hj yj hyj
    refine (runCode_ok hM hw hf (hdef i hi j hj) (final_table hgv hmem ht (fun c' => ?_) hxi hyj hpp
      (fun v hv => ?_) (fun v hv k hk => ?_)) 0).trans ?_
    · rcases hlast with h | h
      · exact .inl h
      · by_cases hcc : c = c'
        · exact .inr (.inr fun v hv h' => h v hv (by omega))
        · exact .inr (.inl hcc)
    · have := hin.cat v ((hmem v).mpr (.inl (Expr.free_vars hv)))
      omega
    · exact hr i hi j hj v (Expr.free_vars hv) k hk
    · simp [vec, hF]
  · exact hsched.nodup_iff.mpr (List.Nodup.product List.nodup_range List.nodup_range)
  · rw [hsched.mem_iff]
    exact List.mem_product.trans (by simp)

end Verif
