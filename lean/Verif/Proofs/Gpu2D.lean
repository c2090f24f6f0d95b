import Verif.Model.Gpu2D
import Verif.Proofs.Exec
import Verif.Proofs.Writes

/-! The two-pass GPU scheme computes correct rows. -/

namespace Verif

open Spec (EvLocal WfVars)

variable {V : Type}

/-- The relation `A` only looks at the `n` first entries of the accumulator. -/
def AccLocal (n : Nat) (A : List (Nat × Mem V) → Mem V → Prop) : Prop :=
  ∀ xs a b, (∀ k < n, a k = b k) → A xs a → A xs b

theorem items_add (a b : Nat) (F : Nat → Mem V) :
    items (a + b) F = items a F ++ (List.range b).map (fun t => (a + t, F (a + t))) := by
  simp [items, List.range_add, List.map_append, Function.comp_def]

theorem gpu2DThread_correct {E} {R : Red V} {A} (h : Lawful E R A)
    {vars : List VarInfo} (hw : WfVars vars) {tagI : Nat} (ht : tagI < 2)
    {ev : (Nat → Option (Mem V)) → Mem V} (hev : EvLocal vars ev)
    {B ny : Nat} (args : Nat → Mem V) (ord : List Nat) (hord : ord.Perm (List.range B))
    (junk : Nat → Mem V) (i y : Nat) :
    A ((List.range (min B (ny - B * y))).map (fun t => (B * y + t,
        ev (directTable vars tagI args i (B * y + t)))))
      (gpu2DThread R ev vars tagI B ny args ord junk i y) := by
  unfold gpu2DThread
  apply forRange_inv (P := fun n s => A ((List.range n).map (fun t => (B * y + t,
        ev (directTable vars tagI args i (B * y + t))))) s)
  · exact h.init _
  · intro t s htt hs
    rw [List.range_succ, List.map_append, List.map_cons, List.map_nil]
    have hj : y * B + t < ny := by rw [Nat.mul_comm]; omega
    have hold := gpuLoadTile_spec (varsOf vars (1 - tagI)) args B ny y ord
      (hord.nodup_iff.mpr List.nodup_range) (junk 2) (t := t)
      (hord.mem_iff.mpr (by simp; omega)) hj
    have he : ev (table vars tagI (loadVars (varsOf vars tagI) args i (junk 1))
        ((gpuLoadTile (varsOf vars (1 - tagI)) args B ny y ord (junk 2)).shift
          (t * sumDims (varsOf vars (1 - tagI)))) (loadVars (varsOf vars 2) args 0 (junk 0))) =
        ev (directTable vars tagI args i (B * y + t)) := by
      apply ev_loaded hw ht hev (args := args) (i := i) (j := B * y + t)
      · exact table_spec hw ht args i _ _ _ _
          (holds_of_eq_loadVars (fun p _ => rfl)) (by rw [Nat.mul_comm B y]; exact hold)
          (holds_of_eq_loadVars (fun p _ => rfl))
      · exact directTable_spec hw ht args i _
    simp only [he]
    exact h.short _ _ _ _ hs

theorem gridSize_mul {B n : Nat} (hB : 0 < B) : n ≤ gridSize n B * B := by
  rcases Nat.eq_zero_or_pos n with rfl | hn
  · omega
  · have := gridSize_covers hB (show n - 1 < n by omega)
    have h1 := Nat.div_add_mod (n - 1) B
    have h2 := Nat.mod_lt (n - 1) hB
    have h3 : ((n - 1) / B + 1) * B ≤ gridSize n B * B := Nat.mul_le_mul_right _ this
    rw [Nat.succ_mul] at h3
    rw [Nat.mul_comm B] at h1
    omega

theorem gridSize_lt {B n y : Nat} (hB : 0 < B) (hy : y < gridSize n B) : y * B < n := by
  unfold gridSize at hy
  have h1 := Nat.div_add_mod n B
  by_cases h0 : n % B = 0
  · rw [if_pos h0, Nat.add_zero] at hy
    have : (y + 1) * B ≤ n / B * B := Nat.mul_le_mul_right _ hy
    rw [Nat.succ_mul] at this
    rw [Nat.mul_comm B] at h1
    omega
  · rw [if_neg h0] at hy
    have : y * B ≤ n / B * B := Nat.mul_le_mul_right _ (by omega)
    rw [Nat.mul_comm B] at h1
    omega

/-- The first pass: line `y * nx + i` of the buffer is the accumulator of row `i` on tile `y`. -/
theorem gpu2DPass1_correct (R : Red V) (ev : (Nat → Option (Mem V)) → Mem V)
    (vars : List VarInfo) (tagI : Nat) {B nx ny : Nat} (hB : 0 < B) (args : Nat → Mem V)
    (ord : Nat × Nat → List Nat) (junk : Nat × Nat → Nat → Mem V)
    (sched : List ((Nat × Nat) × Nat)) (G : Nat)
    (hsched : sched.Perm (((List.range (gridSize nx B)).product
        (List.range G)).product (List.range B))) (outB : Mem V)
    {i y : Nat} (hi : i < nx) (hy : y < G) :
    ∀ k < R.dimred, gpu2DPass1 R ev vars tagI B nx ny args ord junk sched outB
        ((y * nx + i) * R.dimred + k) =
      gpu2DThread R ev vars tagI B ny args (ord (i / B, y)) (junk (i, y)) i y k := by
  intro k hk
  let W : List (Nat × (Mem V → Mem V)) := sched.filterMap (fun bt =>
    if bt.1.1 * B + bt.2 < nx then
      some (bt.1.2 * nx + (bt.1.1 * B + bt.2), fun o => vectCopy R.dimred o
        (gpu2DThread R ev vars tagI B ny args (ord bt.1) (junk (bt.1.1 * B + bt.2, bt.1.2))
          (bt.1.1 * B + bt.2) bt.1.2))
    else none)
  have hW : gpu2DPass1 R ev vars tagI B nx ny args ord junk sched outB =
      runWrites R.dimred W outB := by
    unfold gpu2DPass1
    simp only [W, runWrites, List.foldl_filterMap]
    apply foldl_congr_mem
    intro o bt _
    split
    · have : bt.1.2 * R.dimred * nx + (bt.1.1 * B + bt.2) * R.dimred =
          (bt.1.2 * nx + (bt.1.1 * B + bt.2)) * R.dimred := by
        rw [Nat.add_mul (bt.1.2 * nx), Nat.mul_right_comm]
      rw [this]
    · rfl
  have hmem : ∀ w ∈ W, ∃ b y' t, b < gridSize nx B ∧ y' < G ∧ t < B ∧ b * B + t < nx ∧
      w = (y' * nx + (b * B + t), fun o => vectCopy R.dimred o
        (gpu2DThread R ev vars tagI B ny args (ord (b, y')) (junk (b * B + t, y'))
          (b * B + t) y')) := by
    intro w hw
    obtain ⟨⟨⟨b, y'⟩, t⟩, hbt, he⟩ := List.mem_filterMap.mp hw
    have h1 := List.mem_product.mp (hsched.mem_iff.mp hbt)
    have h2 := List.mem_product.mp h1.1
    simp only [List.mem_range] at h1 h2
    simp only at he
    split at he
    · next hlt => exact ⟨b, y', t, h2.1, h2.2, h1.2, hlt, (Option.some.inj he).symm⟩
    · simp at he
  have hval := runWrites_row (d := R.dimred) (L := W) (i := y * nx + i) (o := outB)
    (val := gpu2DThread R ev vars tagI B ny args (ord (i / B, y)) (junk (i, y)) i y)
    (by
      intro w hw
      obtain ⟨b, y', t, _, _, _, _, rfl⟩ := hmem w hw
      intro o o' p
      simp only [vectCopy_apply]
      exact ⟨fun hp => by simp [hp], fun hp => by simp [Nat.not_lt.mpr hp]⟩)
    (by
      have e : i / B * B + i % B = i := by rw [Nat.mul_comm]; exact Nat.div_add_mod i B
      refine ⟨(y * nx + i, fun o => vectCopy R.dimred o
        (gpu2DThread R ev vars tagI B ny args (ord (i / B, y)) (junk (i, y)) i y)),
        List.mem_filterMap.mpr ⟨((i / B, y), i % B), ?_, ?_⟩, rfl⟩
      · refine hsched.mem_iff.mpr (List.mem_product.mpr ⟨List.mem_product.mpr ⟨?_, ?_⟩, ?_⟩)
        · simpa using gridSize_covers hB hi
        · simpa using hy
        · simpa using Nat.mod_lt i hB
      · simp only [e, hi, if_true])
    (by
      intro w hw hwi k' hk'
      obtain ⟨b, y', t, _, _, ht, hlt, rfl⟩ := hmem w hw
      simp only at hwi
      have hnx : 0 < nx := by omega
      have hy' : y' = y := by
        have h1 := congrArg (· / nx) hwi
        simp only [Nat.mul_comm _ nx, Nat.mul_add_div hnx, Nat.div_eq_of_lt hlt,
          Nat.div_eq_of_lt hi, Nat.add_zero] at h1
        exact h1
      subst hy'
      have hi' : b * B + t = i := by omega
      have hb : b = i / B := by
        rw [← hi', Nat.mul_comm, Nat.mul_add_div hB, Nat.div_eq_of_lt ht, Nat.add_zero]
      simp only [vectCopy_apply, hk', if_true, hi']
      rw [hb])
    outB hk
  rw [hW]
  exact hval

theorem exec2D_correct {E} {R : Red V} {A} (h : Lawful E R A) (hA : AccLocal R.dimred A)
    (hf : FinLocal R) (hdim : R.dim ≠ 0 → R.dimred ≠ 0) {P : Problem V} (hP : WfProblem P)
    {sch : SumScheme} {out out' : Mem V} (he : Exec2D R sch P out out') :
    (∀ i < Spec.outRows P.tagI P.M P.N, ∃ acc, A (rowItems P i) acc ∧ ∀ k < R.dim, ∀ o,
      out' (i * R.dim + k) = R.fin acc o k) ∧
    (∀ p, Spec.outRows P.tagI P.M P.N * R.dim ≤ p → out' p = out p) := by
  have hit : ∀ i, items P.ny (fun j => P.ev (directTable P.vars P.tagI P.args i j)) =
      rowItems P i := by
    intro i
    unfold rowItems
    rw [← ny_eq hP]
    congr 1
    funext j
    exact ev_direct hP i j
  rw [← nx_eq hP]
  obtain ⟨pair, hgen, B, hB, hx, hy, ord, hord, junk, sched, hsched, outB, junk2, sched2, hsched2⟩ := he
  have hpair : R.pair = some pair := by
    cases sch with
    | direct => simp [gen2D] at hgen
    | kahan => simp [gen2D] at hgen
    | block => exact hgen
  let inp := gpu2DPass1 R P.ev P.vars P.tagI B P.nx P.ny P.args ord junk sched outB
  let acc := fun tid => forRange (gridSize P.ny B) (fun y acc2 =>
        pair acc2 (inp.shift ((tid + y * P.nx) * R.dimred))) (R.init (junk2 tid))
  have hacc : ∀ i < P.nx, A (items P.ny (fun j => P.ev (directTable P.vars P.tagI P.args i j)))
      (acc i) := by
    intro i hi
    have key : ∀ n ≤ gridSize P.ny B, A (items (min (n * B) P.ny)
        (fun j => P.ev (directTable P.vars P.tagI P.args i j)))
        (forRange n (fun y acc2 => pair acc2 (inp.shift ((i + y * P.nx) * R.dimred)))
          (R.init (junk2 i))) := by
      intro n
      induction n with
      | zero => intro _; simpa [items, forRange] using h.init (junk2 i)
      | succ n ih =>
        intro hn
        rw [forRange_succ]
        have hlt := gridSize_lt hB (show n < gridSize P.ny B by omega)
        have e1 : min ((n + 1) * B) P.ny = n * B + min B (P.ny - n * B) := by
          rw [Nat.succ_mul]; omega
        have ih' := ih (by omega)
        rw [min_eq_left (Nat.le_of_lt hlt)] at ih'
        rw [e1, items_add]
        refine h.pair pair hpair _ _ _ _ (Or.inr ?_) ih' ?_
        · have : 0 < min B (P.ny - n * B) := by omega
          intro hnil
          have := congrArg List.length hnil
          simp at this
          omega
        · have hth := gpu2DThread_correct h hP.vars hP.tag hP.ev (B := B) (ny := P.ny) P.args
            (ord (i / B, n)) (hord _) (junk (i, n)) i n
          rw [Nat.mul_comm B n] at hth
          refine hA _ _ _ ?_ hth
          intro k hk
          rw [Mem.shift_apply, Nat.add_comm i]
          exact (gpu2DPass1_correct R P.ev P.vars P.tagI hB P.args ord junk sched _ hsched outB
            hi (by omega) k hk).symm
    have := key _ (Nat.le_refl _)
    rw [min_eq_right (gridSize_mul hB)] at this
    exact this
  let W : List (Nat × (Mem V → Mem V)) := sched2.filterMap (fun bt =>
    if bt.1 * B + bt.2 < P.nx then some (bt.1 * B + bt.2, R.fin (acc (bt.1 * B + bt.2))) else none)
  have hW : gpu2DPass2 R pair B P.nx (gridSize P.ny B) junk2 inp sched2 out =
      runWrites R.dim W out := by
    unfold gpu2DPass2
    simp only [W, runWrites, List.foldl_filterMap]
    apply foldl_congr_mem
    intro o bt _
    split <;> rfl
  have hmem : ∀ w ∈ W, ∃ i < P.nx, w = (i, R.fin (acc i)) := by
    intro w hw
    obtain ⟨bt, hbt, he⟩ := List.mem_filterMap.mp hw
    split at he
    · next hlt => exact ⟨_, hlt, (Option.some.inj he).symm⟩
    · simp at he
  have hloc : ∀ w ∈ W, RowLocal R.dim w.2 := by
    intro w hw
    obtain ⟨i, _, rfl⟩ := hmem w hw
    exact hf.rowLocal _
  refine ⟨?_, ?_⟩
  · intro i hi
    refine ⟨acc i, by rw [← hit]; exact hacc i hi, fun k hk o => ?_⟩
    change gpu2DPass2 R pair B P.nx (gridSize P.ny B) junk2 inp sched2 out _ = _
    rw [hW]
    refine runWrites_row (val := R.fin (acc i) o) (o := o) hloc ?_ ?_ out hk
    · have e : i / B * B + i % B = i := by rw [Nat.mul_comm]; exact Nat.div_add_mod i B
      refine ⟨(i, R.fin (acc i)), List.mem_filterMap.mpr ⟨(i / B, i % B), ?_, ?_⟩, rfl⟩
      · refine hsched2.mem_iff.mpr (List.mem_product.mpr ⟨?_, ?_⟩)
        · have : 0 < R.dimred := Nat.pos_of_ne_zero (hdim (by omega))
          have h1 : i < P.nx * R.dimred := Nat.lt_of_lt_of_le hi (Nat.le_mul_of_pos_right _ this)
          simpa using gridSize_covers hB h1
        · simpa using Nat.mod_lt i hB
      · simp only [e, hi, if_true]
    · intro w hw hwi k' _
      obtain ⟨i', _, rfl⟩ := hmem w hw
      simp only at hwi
      rw [hwi]
  · intro p hp
    change gpu2DPass2 R pair B P.nx (gridSize P.ny B) junk2 inp sched2 out p = _
    rw [hW]
    refine runWrites_frame hloc out ?_
    intro w hw hc
    obtain ⟨i', hi', rfl⟩ := hmem w hw
    simp only at hc
    have : (i' + 1) * R.dim ≤ P.nx * R.dim := Nat.mul_le_mul_right _ hi'
    rw [Nat.succ_mul] at this
    omega

end Verif
