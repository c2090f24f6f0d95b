import Mathlib.Data.List.ProdSigma
import Mathlib.Tactic.Ring
import Mathlib.Tactic.NormNum
import Verif.Model.Ranges
import Verif.Proofs.Writes
import Verif.Proofs.Exec

/-! Executions with ranges or batches compute correct rows. -/

namespace Verif

open Spec (EvLocal WfVars)

variable {V : Type}

/-! ### `load_vars` with offsets -/

theorem loadVarsOff_fold {args args' : Nat → Mem V} {row row' : Nat} {offs : Mem Int}
    (vs : List VarInfo) (u : Nat) (x : Mem V × Nat)
    (h : ∀ n v, vs[n]? = some v → ∀ w : Nat, w < v.dim →
      args v.ind (((row : Int) + offs (u + n)) * v.dim + w).toNat = args' v.ind (row' * v.dim + w)) :
    vs.foldl (fun (s : (Mem V × Nat) × Nat) v =>
      (forRange v.dim (fun w (t : Mem V × Nat) =>
        (t.1.set t.2 (args v.ind (((row : Int) + offs s.2) * v.dim + w).toNat), t.2 + 1)) s.1,
        s.2 + 1)) (x, u) =
    (vs.foldl (fun (s : Mem V × Nat) v =>
      forRange v.dim (fun w (s : Mem V × Nat) =>
        (s.1.set s.2 (args' v.ind (row' * v.dim + w)), s.2 + 1)) s) x, u + vs.length) := by
  induction vs generalizing u x with
  | nil => simp
  | cons v vs ih =>
    simp only [List.foldl_cons, List.length_cons]
    have e : forRange v.dim (fun w (t : Mem V × Nat) =>
        (t.1.set t.2 (args v.ind (((row : Int) + offs u) * v.dim + w).toNat), t.2 + 1)) x =
        forRange v.dim (fun w (s : Mem V × Nat) =>
        (s.1.set s.2 (args' v.ind (row' * v.dim + w)), s.2 + 1)) x := by
      apply forRange_congr
      intro w s hw
      have := h 0 v rfl w hw
      rw [Nat.add_zero] at this
      rw [this]
    rw [e, ih (u + 1)]
    · rw [show u + 1 + vs.length = u + (vs.length + 1) by omega]
    · intro n v' hv' w hw
      have := h (n + 1) v' (by simpa using hv') w hw
      rw [show u + 1 + n = u + (n + 1) by omega]
      exact this

theorem loadVarsOff_eq {args args' : Nat → Mem V} {row row' : Nat} {offs : Mem Int}
    {vs : List VarInfo} (x : Mem V)
    (h : ∀ n v, vs[n]? = some v → ∀ w : Nat, w < v.dim →
      args v.ind (((row : Int) + offs n) * v.dim + w).toNat = args' v.ind (row' * v.dim + w)) :
    loadVarsOff vs args row offs x = loadVars vs args' row' x := by
  unfold loadVarsOff loadVars
  rw [loadVarsOff_fold vs 0 (x, 0) (by simpa using h)]

/-! ### The arrays seen by a range -/

/-- Number of rows of one batch along the output axis and along the reduction axis. -/
def RProblem.rowsX (P : RProblem V) : Nat := if P.tagI = 0 then P.sizes.M else P.sizes.N
def RProblem.rowsY (P : RProblem V) : Nat := if P.tagI = 0 then P.sizes.N else P.sizes.M

/-- Line of the shape table for a variable. -/
def RProblem.line (P : RProblem V) (v : VarInfo) : Mem Nat := fun l =>
  if l < P.sizes.nbatchdims then P.sizes.shapes ((1 + v.ind) * (P.sizes.nbatchdims + 3) + l)
  else if v.cat = 2 then 1
  else if v.cat = P.tagI then
    P.sizes.shapes ((1 + v.ind) * (P.sizes.nbatchdims + 3) + P.sizes.nbatchdims + (1 - (1 - P.tagI)))
  else P.sizes.shapes ((1 + v.ind) * (P.sizes.nbatchdims + 3) + P.sizes.nbatchdims + (1 - P.tagI))

/-- Row at which batch `r` of a variable starts. -/
def RProblem.rowOff (P : RProblem V) (r : Nat) (v : VarInfo) : Nat :=
  broadcastIndexLong (if v.cat = 2 then r else if v.cat = P.tagI then r * P.rowsX else r * P.rowsY)
    P.sizes.nbatchdims P.sizes.shapes (P.line v)

/-- The arrays as seen by range `r`: unchanged without batch dimensions. -/
def RProblem.view (P : RProblem V) (r : Nat) : Nat → Mem V :=
  if P.sizes.nbatchdims = 0 then P.args
  else fun ind => match P.vars.find? (fun v => v.ind = ind) with
    | some v => (P.args ind).shift (P.rowOff r v * v.dim)
    | none => P.args ind

theorem toInt32_of_lt {n : Nat} (h : n < 2 ^ 31) : toInt32 n = n := by
  unfold toInt32
  rw [Int.bmod_eq_of_le]
  · have : (0 : Int) ≤ (n : Int) := Int.natCast_nonneg n
    omega
  · have : (n : Int) < 2 ^ 31 := by exact_mod_cast h
    norm_num at this
    omega

theorem broadcastIndexLong_congr {i nb : Nat} {full s s' : Mem Nat} (h : ∀ l ≤ nb, s l = s' l) :
    broadcastIndexLong i nb full s = broadcastIndexLong i nb full s' := by
  unfold broadcastIndexLong
  simp only [h nb le_rfl]
  congr 1
  apply forRange_congr
  intro t st ht
  simp only [h (nb - t - 1) (by omega)]

theorem fillShapes_line {nb k : Nat} {shapes : Mem Nat} {inds : List Nat} {col l : Nat} (hl : l ≤ nb) :
    (fillShapes nb shapes inds col).shift ((nb + 1) * k) l =
      if l < nb then shapes ((1 + inds.getD k 0) * (nb + 3) + l)
      else shapes ((1 + inds.getD k 0) * (nb + 3) + nb + col) := by
  simp only [Mem.shift_apply, fillShapes]
  have h1 : ((nb + 1) * k + l) / (nb + 1) = k := by
    rw [Nat.mul_add_div (by omega), Nat.div_eq_of_lt (by omega), Nat.add_zero]
  have h2 : ((nb + 1) * k + l) % (nb + 1) = l := by
    rw [Nat.mul_add_mod, Nat.mod_eq_of_lt (by omega)]
  rw [h1, h2]

theorem fillShapesP_line {nb k : Nat} {shapes : Mem Nat} {inds : List Nat} {l : Nat} (hl : l ≤ nb) :
    (fillShapesP nb shapes inds).shift ((nb + 1) * k) l =
      if l < nb then shapes ((1 + inds.getD k 0) * (nb + 3) + l) else 1 := by
  simp only [Mem.shift_apply, fillShapesP]
  have h1 : ((nb + 1) * k + l) / (nb + 1) = k := by
    rw [Nat.mul_add_div (by omega), Nat.div_eq_of_lt (by omega), Nat.add_zero]
  have h2 : ((nb + 1) * k + l) % (nb + 1) = l := by
    rw [Nat.mul_add_mod, Nat.mod_eq_of_lt (by omega)]
  rw [h1, h2]

theorem map_ind_getD {vs : List VarInfo} {n : Nat} {v : VarInfo} (h : vs[n]? = some v) :
    (vs.map (·.ind)).getD n 0 = v.ind := by
  simp [List.getD, h]

/-- Well-formed calls with ranges: variables, tag, formula; all rows addressed by 32-bit offsets. -/
structure WfRProblem (P : RProblem V) : Prop where
  vars : WfVars P.vars
  tag : P.tagI < 2
  ev : EvLocal P.vars P.ev
  int32 : P.sizes.nbatchdims ≠ 0 → ∀ r < P.ax.nranges, ∀ v ∈ P.vars, P.rowOff r v < 2 ^ 31

theorem view_apply {P : RProblem V} (hw : WfVars P.vars) (hnb : P.sizes.nbatchdims ≠ 0) {r : Nat}
    {v : VarInfo} (hv : v ∈ P.vars) (p : Nat) :
    P.view r v.ind p = P.args v.ind (P.rowOff r v * v.dim + p) := by
  unfold RProblem.view
  rw [if_neg hnb]
  simp only [find_ind hw.nodup hv, Mem.shift_apply]

/-- Offsets computed by `vect_broadcast_index` for the variables of category `c`. -/
theorem offs_load {P : RProblem V} (hP : WfRProblem P) (hnb : P.sizes.nbatchdims ≠ 0) {r : Nat}
    (hr : r < P.ax.nranges)
    {c start : Nat} {sh : Mem Nat} {add : Int} {row row' : Nat} (x : Mem V)
    (hsh : ∀ n v, (varsOf P.vars c)[n]? = some v → ∀ l ≤ P.sizes.nbatchdims,
      sh.shift ((P.sizes.nbatchdims + 1) * n) l = P.line v l)
    (hstart : ∀ v ∈ varsOf P.vars c, (if v.cat = 2 then r else if v.cat = P.tagI then r * P.rowsX
      else r * P.rowsY) = start)
    (hrow : (row : Int) + add = row') :
    loadVarsOff (varsOf P.vars c) P.args row
      (vectBroadcastIndex start P.sizes.nbatchdims P.sizes.shapes sh add) x =
    loadVars (varsOf P.vars c) (P.view r) row' x := by
  apply loadVarsOff_eq
  intro n v hv w hw
  have hmem : v ∈ varsOf P.vars c := List.mem_of_getElem? hv
  have hv' : v ∈ P.vars := (List.mem_filter.mp hmem).1
  have e : broadcastIndexLong start P.sizes.nbatchdims P.sizes.shapes
      (sh.shift ((P.sizes.nbatchdims + 1) * n)) = P.rowOff r v := by
    unfold RProblem.rowOff
    rw [hstart v hmem]
    exact broadcastIndexLong_congr (hsh n v hv)
  rw [view_apply hP.vars hnb hv']
  unfold vectBroadcastIndex broadcastIndex
  rw [e, toInt32_of_lt (hP.int32 hnb r hr v hv')]
  congr 1
  have : (row : Int) + (add + (P.rowOff r v : Int)) = ((P.rowOff r v + row' : Nat) : Int) := by
    push_cast; rw [← hrow]; ring
  rw [this]
  have h2 : ((P.rowOff r v + row' : Nat) : Int) * (v.dim : Int) + (w : Int) =
      ((P.rowOff r v * v.dim + (row' * v.dim + w) : Nat) : Int) := by
    push_cast; ring
  rw [h2, Int.toNat_natCast]

theorem shapesI_line {P : RProblem V} (ht : P.tagI < 2) {n : Nat} {v : VarInfo}
    (hv : (varsOf P.vars P.tagI)[n]? = some v) {l : Nat} (hl : l ≤ P.sizes.nbatchdims) :
    P.shapesI.shift ((P.sizes.nbatchdims + 1) * n) l = P.line v l := by
  have hc : v.cat = P.tagI := by
    have := (List.mem_filter.mp (List.mem_of_getElem? hv)).2; simpa using this
  unfold RProblem.shapesI RProblem.line RProblem.varsI
  rw [fillShapes_line hl, map_ind_getD hv, if_neg (show ¬ v.cat = 2 by omega), if_pos hc]

theorem shapesJ_line {P : RProblem V} (ht : P.tagI < 2) {n : Nat} {v : VarInfo}
    (hv : (varsOf P.vars (1 - P.tagI))[n]? = some v) {l : Nat} (hl : l ≤ P.sizes.nbatchdims) :
    P.shapesJ.shift ((P.sizes.nbatchdims + 1) * n) l = P.line v l := by
  have hc : v.cat = 1 - P.tagI := by
    have := (List.mem_filter.mp (List.mem_of_getElem? hv)).2; simpa using this
  unfold RProblem.shapesJ RProblem.line RProblem.varsJ
  rw [fillShapes_line hl, map_ind_getD hv, if_neg (show ¬ v.cat = 2 by omega),
    if_neg (show ¬ v.cat = P.tagI by omega)]

theorem shapesP_line {P : RProblem V} {n : Nat} {v : VarInfo}
    (hv : (varsOf P.vars 2)[n]? = some v) {l : Nat} (hl : l ≤ P.sizes.nbatchdims) :
    P.shapesP.shift ((P.sizes.nbatchdims + 1) * n) l = P.line v l := by
  have hc : v.cat = 2 := by
    have := (List.mem_filter.mp (List.mem_of_getElem? hv)).2; simpa using this
  unfold RProblem.shapesP RProblem.line RProblem.varsP
  rw [fillShapesP_line hl, map_ind_getD hv, if_pos hc]

theorem start_cat {P : RProblem V} (ht : P.tagI < 2) {r c : Nat} {v : VarInfo}
    (hv : v ∈ varsOf P.vars c) :
    (if v.cat = 2 then r else if v.cat = P.tagI then r * P.rowsX else r * P.rowsY) =
    (if c = 2 then r else if c = P.tagI then r * P.rowsX else r * P.rowsY) := by
  have hc : v.cat = c := by
    have := (List.mem_filter.mp hv).2; simpa using this
  rw [hc]

/-- Evaluation of the formula on local copies of rows of the arrays `args`. -/
theorem ev_table {vars : List VarInfo} (hw : WfVars vars) {tagI : Nat} (ht : tagI < 2)
    {ev : (Nat → Option (Mem V)) → Mem V} (hev : EvLocal vars ev) (args : Nat → Mem V) (i j : Nat)
    {xi yj pp : Mem V} (hx : Holds (varsOf vars tagI) args i xi)
    (hy : Holds (varsOf vars (1 - tagI)) args j yj) (hp : Holds (varsOf vars 2) args 0 pp) :
    ev (table vars tagI xi yj pp) = ev (Spec.env vars tagI args i j) :=
  ev_loaded hw ht hev (table_spec hw ht args i j xi yj pp hx hy hp) (env_loaded hw ht args i j)

/-- Rows of range `r` in its view: shifted by the start of the range when there are batches. -/
def RProblem.locI (P : RProblem V) (r i : Nat) : Nat :=
  if P.sizes.nbatchdims = 0 then i else i - P.ax.rangesX (2 * r)
def RProblem.locJ (P : RProblem V) (startY j : Nat) : Nat :=
  if P.sizes.nbatchdims = 0 then j else j - startY

/-- The formula at row `i` of range `r` and column `j` of an interval starting at `startY`. -/
def RProblem.F (P : RProblem V) (r i startY j : Nat) : Mem V :=
  P.ev (Spec.env P.vars P.tagI (P.view r) (P.locI r i) (P.locJ startY j))

/-- With batches, range `r` is the batch `r` and has exactly one interval, the batch `r` again. -/
structure BatchLike (P : RProblem V) : Prop where
  startX : P.sizes.nbatchdims ≠ 0 → ∀ r < P.ax.nranges, P.ax.rangesX (2 * r) = r * P.rowsX
  slice : P.sizes.nbatchdims ≠ 0 → ∀ r < P.ax.nranges,
    P.ax.startSlice r = r ∧ P.ax.endSlice r = r + 1
  startY : P.sizes.nbatchdims ≠ 0 → ∀ r < P.ax.nranges, P.ax.rangesY (2 * r) = r * P.rowsY

theorem cpuRangeF_eq {P : RProblem V} (hP : WfRProblem P) (hb : BatchLike P)
    (junk : Nat → Mem V) {r : Nat} (hr : r < P.ax.nranges) (i j slice : Nat)
    (hsl : P.ax.startSlice r ≤ slice ∧ slice < P.ax.endSlice r) :
    cpuRangeF P junk r i (P.ax.rangesY (2 * slice)) j = P.F r i (P.ax.rangesY (2 * slice)) j := by
  have ht := hP.tag
  by_cases hnb : P.sizes.nbatchdims = 0
  · have ho : ∀ sh i add, P.offs sh i add = none := by
      intro sh i add; unfold RProblem.offs; rw [if_neg (by omega)]
    unfold cpuRangeF RProblem.F RProblem.locI RProblem.locJ RProblem.view
    simp only [ho, hnb, if_true]
    exact ev_table hP.vars ht hP.ev P.args i j (holds_of_eq_loadVars (fun p _ => rfl))
      (holds_of_eq_loadVars (fun p _ => rfl)) (holds_of_eq_loadVars (fun p _ => rfl))
  · have ho : ∀ sh i add, P.offs sh i add =
        some (vectBroadcastIndex i P.sizes.nbatchdims P.sizes.shapes sh add) := by
      intro sh i add; unfold RProblem.offs; rw [if_pos (by omega)]
    obtain ⟨e1, e2⟩ := hb.slice hnb r hr
    have hs : slice = r := by omega
    subst hs
    unfold cpuRangeF RProblem.F RProblem.locI RProblem.locJ
    simp only [ho, hnb, if_false]
    rw [hb.startX hnb slice hr, hb.startY hnb slice hr]
    unfold RProblem.varsI RProblem.varsJ RProblem.varsP
    rw [offs_load hP hnb hr (row' := i - slice * P.rowsX) _ (fun n v hv l hl => shapesI_line ht hv hl)
        (fun v hv => by rw [start_cat ht hv, if_neg (by omega), if_pos rfl]) (by simp),
      offs_load hP hnb hr (row' := j - slice * P.rowsY) _ (fun n v hv l hl => shapesJ_line ht hv hl)
        (fun v hv => by rw [start_cat ht hv, if_neg (by omega), if_neg (by omega)]) (by simp),
      offs_load hP hnb hr (row' := 0) _ (fun n v hv l hl => shapesP_line hv hl)
        (fun v hv => by rw [start_cat ht hv, if_pos rfl]) (by simp)]
    exact ev_table hP.vars ht hP.ev _ _ _ (holds_of_eq_loadVars (fun p _ => rfl))
      (holds_of_eq_loadVars (fun p _ => rfl)) (holds_of_eq_loadVars (fun p _ => rfl))

/-! ### Items of a row -/

/-- Items of the interval `[a, b)` starting at `startY`. -/
def segItems (F : Nat → Mem V) (ix : Nat → Nat) (a b : Nat) : List (Nat × Mem V) :=
  (List.range' a (b - a)).map (fun j => (ix j, F j))

/-- Items visited for a row: the listed intervals in order. -/
def sliceItems (rangesY : Mem Nat) (F : Nat → Nat → Mem V) (ix : Nat → Nat → Nat) (s0 n : Nat) :
    List (Nat × Mem V) :=
  (List.range' s0 n).flatMap (fun sl =>
    segItems (F (rangesY (2 * sl))) (ix (rangesY (2 * sl))) (rangesY (2 * sl)) (rangesY (2 * sl + 1)))

/-- The items of row `i` of range `r`. -/
def RProblem.items (P : RProblem V) (r i : Nat) : List (Nat × Mem V) :=
  sliceItems P.ax.rangesY (P.F r i) P.locJ (P.ax.startSlice r) (P.ax.endSlice r - P.ax.startSlice r)

theorem segItems_succ (F : Nat → Mem V) (ix : Nat → Nat) (a n : Nat) :
    segItems F ix a (a + (n + 1)) = segItems F ix a (a + n) ++ [(ix (a + n), F (a + n))] := by
  unfold segItems
  rw [show a + (n + 1) - a = n + 1 by omega, show a + n - a = n by omega, List.range'_concat]
  simp

theorem segItems_append (F : Nat → Mem V) (ix : Nat → Nat) {a b c : Nat} (h1 : a ≤ b) (h2 : b ≤ c) :
    segItems F ix a c = segItems F ix a b ++ segItems F ix b c := by
  unfold segItems
  rw [← List.map_append]
  congr 1
  have := List.range'_append (s := a) (m := b - a) (n := c - b) (step := 1)
  rw [show a + 1 * (b - a) = b by omega, show b - a + (c - b) = c - a by omega] at this
  exact this.symm

theorem segItems_nil (F : Nat → Mem V) (ix : Nat → Nat) {a b : Nat} (h : b ≤ a) :
    segItems F ix a b = [] := by
  unfold segItems
  rw [show b - a = 0 by omega]; rfl

theorem sliceItems_succ (rangesY : Mem Nat) (F : Nat → Nat → Mem V) (ix : Nat → Nat → Nat)
    (s0 n : Nat) :
    sliceItems rangesY F ix s0 (n + 1) = sliceItems rangesY F ix s0 n ++
      segItems (F (rangesY (2 * (s0 + n)))) (ix (rangesY (2 * (s0 + n)))) (rangesY (2 * (s0 + n)))
        (rangesY (2 * (s0 + n) + 1)) := by
  unfold sliceItems
  rw [List.range'_concat, List.flatMap_append]
  simp

/-! ### CPU -/

theorem cpuRangeRow_correct {E} {R : Red V} {S : Scheme V} {A B G} (h : LawfulScheme E R S A B G)
    (rangesY : Mem Nat) (s0 s1 : Nat) (F F' : Nat → Nat → Mem V) (ix : Nat → Nat → Nat)
    (hF : ∀ slice, s0 ≤ slice ∧ slice < s1 → ∀ j, F (rangesY (2 * slice)) j = F' (rangesY (2 * slice)) j)
    (hne : E ∨ sliceItems rangesY F' ix s0 (s1 - s0) ≠ []) (accJ tmpJ : Mem V) :
    ∃ acc, A (sliceItems rangesY F' ix s0 (s1 - s0)) acc ∧
      ∀ o, cpuRangeRow R S rangesY s0 s1 F ix accJ tmpJ o = R.fin acc o := by
  refine ⟨_, ?_, fun o => rfl⟩
  apply h.acc
  apply h.final _ _ hne
  apply forStride_inv (P := fun n s => B (sliceItems rangesY F' ix s0 n) s)
  · exact h.cpuInit _ _
  · intro n s hn hs
    rw [sliceItems_succ, Nat.mul_one]
    generalize hsl : s0 + n = slice
    have hb := hF slice (by omega)
    by_cases hle : rangesY (2 * slice) ≤ rangesY (2 * slice + 1)
    · have key : ∀ m, m ≤ rangesY (2 * slice + 1) - rangesY (2 * slice) →
          B (sliceItems rangesY F' ix s0 n ++ segItems (F' (rangesY (2 * slice)))
            (ix (rangesY (2 * slice))) (rangesY (2 * slice)) (rangesY (2 * slice) + m))
          (forStride (rangesY (2 * slice)) 1 m (fun j s =>
            S.accum s (F (rangesY (2 * slice)) j) (ix (rangesY (2 * slice)) j)) s) := by
        intro m _
        apply forStride_inv (P := fun m s => B (sliceItems rangesY F' ix s0 n ++
          segItems (F' (rangesY (2 * slice)))
            (ix (rangesY (2 * slice))) (rangesY (2 * slice)) (rangesY (2 * slice) + m)) s)
        · rw [segItems_nil _ _ (by omega), List.append_nil]; exact hs
        · intro t s _ hs
          rw [segItems_succ, ← List.append_assoc, Nat.mul_one, hb]
          exact h.accum _ _ _ _ hs
      have := key _ le_rfl
      rw [show rangesY (2 * slice) + (rangesY (2 * slice + 1) - rangesY (2 * slice)) =
        rangesY (2 * slice + 1) by omega] at this
      exact this
    · rw [segItems_nil _ _ (by omega), List.append_nil]
      have h0 : rangesY (2 * slice + 1) - rangesY (2 * slice) = 0 := by omega
      simp only [h0]
      exact hs

/-! ### GPU -/

theorem gpuRLoadTile_spec (ld : Nat → Mem V → Mem V) (dimy endY jstart : Nat)
    (hld : ∀ j, RowLocal dimy (ld j)) (ts : List Nat) (hnd : ts.Nodup) (yj o : Mem V) {t : Nat}
    (ht : t ∈ ts) (hj : jstart + t < endY) {p : Nat} (hp : p < dimy) :
    (gpuRLoadTile ld dimy endY jstart ts yj).shift (t * dimy) p = ld (jstart + t) o p := by
  have h := foldl_onSlice_rows (d := dimy) (fun t => ld (jstart + t))
    (fun i o o' p hp => (hld _ o o' p).1 hp) (fun i o p hp => (hld _ o o p).2 hp)
    (ts.filter (fun t => decide (jstart + t < endY))) (hnd.filter _) yj
  have h1 := h.1 t (by simp [ht, hj]) p hp o
  rw [← h1]
  have := foldl_if_filter (fun t => decide (jstart + t < endY))
    (fun yj t => onSlice (t * dimy) (ld (jstart + t)) yj) ts yj
  rw [← this]
  simp only [Mem.shift_apply, gpuRLoadTile, decide_eq_true_eq]

theorem gpuRTiles_correct {E} {R : Red V} {S : Scheme V} {A Bf G} (h : LawfulScheme E R S A Bf G)
    (ld : Nat → Mem V → Mem V) (Fs : Mem V → Mem V) (F : Nat → Mem V) (dimy : Nat)
    {B startY endY base : Nat} (hld : ∀ j, RowLocal dimy (ld j))
    (hF : ∀ j, startY ≤ j → j < endY → ∀ y, (∀ o, ∀ p < dimy, y p = ld j o p) → Fs y = F j)
    (hB : 0 < B) (ord : Nat → List Nat)
    (hord : ∀ tile, (ord tile).Nodup ∧ ∀ t < B, t ∈ ord tile) (pre : List (Nat × Mem V)) :
    ∀ fuel jstart tile yj s, jstart = startY + tile * B → endY ≤ jstart + fuel →
      G (pre ++ segItems F (fun j => j - startY + base) startY (min jstart endY)) s →
      G (pre ++ segItems F (fun j => j - startY + base) startY endY)
        (gpuRTiles S ld Fs dimy B endY base ord fuel jstart tile yj s).2 := by
  intro fuel
  induction fuel with
  | zero =>
    intro jstart tile yj s _ hfuel hs
    rw [min_eq_right (by omega)] at hs
    exact hs
  | succ fuel ih =>
    intro jstart tile yj s hj hfuel hs
    unfold gpuRTiles
    split
    · next hlt =>
      apply ih
      · rw [hj, Nat.succ_mul]; omega
      · omega
      · rw [min_eq_left (Nat.le_of_lt hlt)] at hs
        have hmin : min (jstart + B) endY = jstart + min B (endY - jstart) := by omega
        rw [hmin]
        have hge : startY ≤ jstart := by omega
        apply h.final
        · right
          intro he
          have := (List.append_eq_nil_iff.mp he).2
          have h2 := congrArg List.length this
          simp only [segItems, List.length_map, List.length_range', List.length_nil] at h2
          omega
        · apply forRange_inv (P := fun n s => Bf (pre ++ segItems F (fun j => j - startY + base)
            startY (jstart + n)) s)
          · exact h.blockInit _ _ hs
          · intro jrel s hjr hs
            have hjr' : jrel < B ∧ jrel < endY - jstart := by omega
            have e1 : segItems F (fun j => j - startY + base) startY (jstart + (jrel + 1)) =
                segItems F (fun j => j - startY + base) startY (jstart + jrel) ++
                  [(jstart + jrel - startY + base, F (jstart + jrel))] := by
              have := segItems_succ F (fun j => j - startY + base) startY (jstart - startY + jrel)
              rw [show startY + (jstart - startY + jrel + 1) = jstart + (jrel + 1) by omega,
                show startY + (jstart - startY + jrel) = jstart + jrel by omega] at this
              exact this
            rw [e1, ← List.append_assoc]
            have e2 : jrel + tile * B + base = jstart + jrel - startY + base := by omega
            rw [e2, hF (jstart + jrel) (by omega) (by omega) _ (fun o p hp =>
              gpuRLoadTile_spec ld dimy endY jstart hld (ord tile) (hord tile).1 yj o
                ((hord tile).2 jrel hjr'.1) (by omega) hp)]
            exact h.accum _ _ _ _ hs
    · next hlt =>
      rw [min_eq_right (by omega)] at hs
      exact hs

/-- The loop over intervals with merging, without batches: the index given to the reduction is
`j`. -/
theorem gpuRSlices_correct {E} {R : Red V} {S : Scheme V} {A Bf G} (h : LawfulScheme E R S A Bf G)
    (ld : Nat → Mem V → Mem V) (Fs : Mem V → Mem V) (F : Nat → Mem V) (dimy : Nat)
    {B : Nat} (hld : ∀ j, RowLocal dimy (ld j))
    (hF : ∀ j, ∀ y, (∀ o, ∀ p < dimy, y p = ld j o p) → Fs y = F j)
    (hB : 0 < B) (ord : Nat → Nat → List Nat)
    (hord : ∀ index tile, (ord index tile).Nodup ∧ ∀ t < B, t ∈ ord index tile)
    (rangesY : Mem Nat) (s0 s1 : Nat)
    (hwf : ∀ sl, s0 ≤ sl → sl < s1 → rangesY (2 * sl) ≤ rangesY (2 * sl + 1))
    (yj : Mem V) (s : Mem V × Mem V) (hs : G [] s) :
    G (sliceItems rangesY (fun _ => F) (fun _ j => j) s0 (s1 - s0))
      (gpuRSlices S (fun _ => ld) Fs dimy B 0 rangesY s0 s1 ord
        (rangesY (2 * s0), (yj, s))).2.2 := by
  have key := forStride_inv (P := fun n (st : Nat × (Mem V × (Mem V × Mem V))) =>
      ∃ done, G done st.2.2 ∧ 
        (n < s1 - s0 → st.1 ≤ rangesY (2 * (s0 + n)) ∧
          sliceItems rangesY (fun _ => F) (fun _ j => j) s0 n =
            done ++ segItems F (fun j => j) st.1 (rangesY (2 * (s0 + n)))) ∧
        (n = s1 - s0 → sliceItems rangesY (fun _ => F) (fun _ j => j) s0 n = done))
    s0 1 (s1 - s0) (fun index st =>
      if index + 1 ≥ s1 ∨ rangesY (2 * index + 2) ≠ rangesY (2 * index + 1) then
        let endY := rangesY (2 * index + 1)
        let r := gpuRTiles S ld Fs dimy B endY (if (0 : Nat) = 0 then st.1 else 0) (ord index)
          (endY - st.1) st.1 0 st.2.1 st.2.2
        (if index + 1 < s1 then rangesY (2 * index + 2) else st.1, r)
      else st) (rangesY (2 * s0), (yj, s)) ?_ ?_
  · obtain ⟨done, hG, _, h2⟩ := key
    rw [h2 rfl]
    exact hG
  · refine ⟨[], hs, ?_, ?_⟩
    · intro _
      refine ⟨by simp, ?_⟩
      rw [segItems_nil _ _ (by simp)]
      rfl
    · intro _
      rfl
  · rintro n ⟨cur, yj, s⟩ hn ⟨done, hG, h1, _⟩
    obtain ⟨hcur, hit⟩ := h1 hn
    simp only [Nat.mul_one]
    have hw := hwf (s0 + n) (by omega) (by omega)
    have hfull : sliceItems rangesY (fun _ => F) (fun _ j => j) s0 (n + 1) =
        done ++ segItems F (fun j => j) cur (rangesY (2 * (s0 + n) + 1)) := by
      rw [sliceItems_succ, hit, List.append_assoc, ← segItems_append F (fun j => j) hcur hw]
    split
    · next hcond =>
      refine ⟨sliceItems rangesY (fun _ => F) (fun _ j => j) s0 (n + 1), ?_, ?_, fun _ => rfl⟩
      · simp only [if_true]
        rw [hfull]
        have hseg : segItems F (fun j => j - cur + cur) cur (rangesY (2 * (s0 + n) + 1)) =
            segItems F (fun j => j) cur (rangesY (2 * (s0 + n) + 1)) := by
          unfold segItems
          apply List.map_congr_left
          intro j hj
          have := (List.mem_range'_1.mp hj).1
          simp only [Nat.sub_add_cancel this]
        rw [← hseg]
        apply gpuRTiles_correct h ld Fs F dimy hld (fun j _ _ => hF j) hB (ord (s0 + n))
          (hord (s0 + n)) done _ cur 0 yj s (by simp) (by omega)
        rw [segItems_nil _ _ (by omega), List.append_nil]
        exact hG
      · intro hlt
        have e : rangesY (2 * (s0 + n) + 2) = rangesY (2 * (s0 + (n + 1))) := by
          rw [show 2 * (s0 + n) + 2 = 2 * (s0 + (n + 1)) by omega]
        rw [if_pos (by omega), e]
        refine ⟨le_rfl, ?_⟩
        rw [segItems_nil _ _ le_rfl, List.append_nil]
    · next hcond =>
      have hc : s0 + n + 1 < s1 ∧ rangesY (2 * (s0 + n) + 2) = rangesY (2 * (s0 + n) + 1) := by
        constructor
        · by_contra hh; exact hcond (Or.inl (by omega))
        · by_contra hh; exact hcond (Or.inr hh)
      refine ⟨done, hG, ?_, by omega⟩
      intro _
      have e : rangesY (2 * (s0 + (n + 1))) = rangesY (2 * (s0 + n) + 1) := by
        rw [← hc.2, show 2 * (s0 + n) + 2 = 2 * (s0 + (n + 1)) by omega]
      rw [e]
      exact ⟨by simp only; omega, hfull⟩

theorem loadVars_rowLocal (vs : List VarInfo) (args : Nat → Mem V) (row : Nat) :
    RowLocal (sumDims vs) (loadVars vs args row) :=
  fun o o' p => ⟨fun hp => loadVars_in args row vs o o' hp, fun hp => loadVars_out args row vs o hp⟩

/-- One thread of the GPU kernel. -/
theorem gpuRangesThread_correct {E} {R : Red V} {S : Scheme V} {A Bf G}
    (h : LawfulScheme E R S A Bf G) {P : RProblem V} (hP : WfRProblem P) (hb : BatchLike P)
    {r : Nat} (hr : r < P.ax.nranges)
    (hwf : ∀ sl, P.ax.startSlice r ≤ sl → sl < P.ax.endSlice r →
      P.ax.rangesY (2 * sl) ≤ P.ax.rangesY (2 * sl + 1))
    {B : Nat} (hB : 0 < B) (startX endX t : Nat) (hst : P.ax.rangesX (2 * r) ≤ startX)
    (ord : Nat → Nat → List Nat)
    (hord : ∀ index tile, (ord index tile).Nodup ∧ ∀ t < B, t ∈ ord index tile)
    (junk : Nat → Mem V) :
    ∃ acc, A (P.items r (startX + t)) acc ∧
      ∀ o, gpuRangesThread R S P B (r, startX, endX) t ord junk o = R.fin acc o := by
  refine ⟨_, ?_, fun o => rfl⟩
  apply h.acc
  have ht := hP.tag
  by_cases hnb : P.sizes.nbatchdims = 0
  · have ho : ∀ sh i add, P.offs sh i add = none := by
      intro sh i add; unfold RProblem.offs; rw [if_neg (by omega)]
    simp only [ho, hnb, loadVarsOpt]
    unfold RProblem.items
    have e1 : P.F r (startX + t) = fun _ j => P.F r (startX + t) 0 j := by
      funext s j; unfold RProblem.F RProblem.locJ; simp only [hnb, if_true]
    have e2 : P.locJ = fun _ j => j := by
      funext s j; unfold RProblem.locJ; simp only [hnb, if_true]
    rw [e1, e2]
    apply gpuRSlices_correct h (fun j => loadVars P.varsJ P.args j) _ _ _
      (fun j => loadVars_rowLocal _ _ _) _ hB ord hord _ _ _ hwf _ _ (h.gpuInit _ _)
    intro j y hy
    unfold RProblem.F RProblem.locI RProblem.locJ RProblem.view
    simp only [hnb, if_true]
    exact ev_table hP.vars ht hP.ev P.args _ j (holds_of_eq_loadVars (fun p _ => rfl))
      (holds_of_eq_loadVars (hy (junk 0))) (holds_of_eq_loadVars (fun p _ => rfl))
  · have ho : ∀ sh i add, P.offs sh i add =
        some (vectBroadcastIndex i P.sizes.nbatchdims P.sizes.shapes sh add) := by
      intro sh i add; unfold RProblem.offs; rw [if_pos (by omega)]
    obtain ⟨e1, e2⟩ := hb.slice hnb r hr
    have hX := hb.startX hnb r hr
    have hY := hb.startY hnb r hr
    simp only [ho, loadVarsOpt]
    unfold RProblem.items
    rw [e1, e2]
    unfold gpuRSlices
    rw [show r + 1 - r = 1 by omega, forStride_succ, forStride_zero, sliceItems_succ]
    simp only [Nat.zero_mul, Nat.add_zero]
    rw [if_pos (Or.inl le_rfl), if_neg hnb]
    have hnil : sliceItems P.ax.rangesY (P.F r (startX + t)) P.locJ r 0 = [] := rfl
    rw [hnil]
    have hseg : segItems (P.F r (startX + t) (P.ax.rangesY (2 * r))) (P.locJ (P.ax.rangesY (2 * r)))
        (P.ax.rangesY (2 * r)) (P.ax.rangesY (2 * r + 1)) =
        segItems (P.F r (startX + t) (P.ax.rangesY (2 * r)))
          (fun j => j - P.ax.rangesY (2 * r) + 0)
        (P.ax.rangesY (2 * r)) (P.ax.rangesY (2 * r + 1)) := by
      congr 1
      funext j; unfold RProblem.locJ; simp only [hnb, if_false, Nat.add_zero]
    rw [hseg]
    have hXr : (if P.tagI = 0 then P.sizes.M else P.sizes.N) = P.rowsX := rfl
    have hYr : (if P.tagI = 0 then P.sizes.N else P.sizes.M) = P.rowsY := rfl
    rw [hXr, hYr]
    have hld : ∀ j x, loadVarsOff P.varsJ P.args (j - P.ax.rangesY (2 * r))
        (vectBroadcastIndex (r * P.rowsY) P.sizes.nbatchdims P.sizes.shapes P.shapesJ 0) x =
        loadVars P.varsJ (P.view r) (j - P.ax.rangesY (2 * r)) x := by
      intro j x
      exact offs_load hP hnb hr (row' := j - P.ax.rangesY (2 * r)) x
        (fun n v hv l hl => shapesJ_line ht hv hl)
        (fun v hv => by rw [start_cat ht hv, if_neg (by omega), if_neg (by omega)]) (by simp)
    apply gpuRTiles_correct h _ _ _ _ (B := B) (startY := P.ax.rangesY (2 * r)) _ _ hB (ord r) (hord r) []
      _ _ 0 _ _ (by simp) (by omega)
    · rw [segItems_nil _ _ (by omega)]
      exact h.gpuInit _ _
    · intro j o o' p
      simp only [hld]
      exact loadVars_rowLocal _ _ _ o o' p
    · intro j _ _ y hy
      simp only [hld] at hy
      unfold RProblem.F RProblem.locI RProblem.locJ
      simp only [hnb, if_false]
      unfold RProblem.varsI RProblem.varsP
      rw [offs_load hP hnb hr (row' := startX + t - P.ax.rangesX (2 * r)) _
          (fun n v hv l hl => shapesI_line ht hv hl)
          (fun v hv => by rw [start_cat ht hv, if_neg (by omega), if_pos rfl]) (by
            rw [hX] at hst ⊢
            push_cast [Nat.cast_sub (show r * P.rowsX ≤ startX + t by omega)]
            ring),
        offs_load hP hnb hr (row' := 0) _ (fun n v hv l hl => shapesP_line hv hl)
          (fun v hv => by rw [start_cat ht hv, if_pos rfl]) (by simp)]
      exact ev_table hP.vars ht hP.ev _ _ _ (holds_of_eq_loadVars (fun p _ => rfl))
        (holds_of_eq_loadVars (hy (junk 0))) (holds_of_eq_loadVars (fun p _ => rfl))

/-! ### The lookup table -/

theorem lookupRange_mem {B i start len : Nat} (hB : 0 < B) :
    ∀ fuel j blk, len ≤ j + fuel → (blk ∈ lookupRange B i start len fuel j ↔
      ∃ t, j + t * B < len ∧ blk = (i, start + (j + t * B), start + (j + t * B) +
        min B (len - (j + t * B)))) := by
  intro fuel
  induction fuel with
  | zero =>
    intro j blk hf
    simp only [lookupRange, List.not_mem_nil, false_iff, not_exists, not_and]
    intro t ht; omega
  | succ fuel ih =>
    intro j blk hf
    unfold lookupRange
    split
    · next hlt =>
      rw [List.mem_cons, ih (j + B) blk (by omega)]
      constructor
      · rintro (rfl | ⟨t, ht, rfl⟩)
        · exact ⟨0, by simpa using hlt, by simp⟩
        · refine ⟨t + 1, ?_, ?_⟩
          · rw [Nat.succ_mul]; omega
          · rw [Nat.succ_mul, show j + (t * B + B) = j + B + t * B by omega]
      · rintro ⟨t, ht, rfl⟩
        cases t with
        | zero => left; simp
        | succ t =>
          right
          rw [Nat.succ_mul] at ht ⊢
          exact ⟨t, by omega, by rw [show j + (t * B + B) = j + B + t * B by omega]⟩
    · next hlt =>
      simp only [List.not_mem_nil, false_iff, not_exists, not_and]
      intro t ht; omega

theorem lookupTable_mem {B n : Nat} (hB : 0 < B) (rangesX : Mem Nat) (blk : Nat × Nat × Nat) :
    blk ∈ lookupTable B n rangesX ↔ ∃ r < n, ∃ t,
      t * B < rangesX (2 * r + 1) - rangesX (2 * r) ∧
      blk = (r, rangesX (2 * r) + t * B, rangesX (2 * r) + t * B +
        min B (rangesX (2 * r + 1) - rangesX (2 * r) - t * B)) := by
  simp only [lookupTable, List.mem_flatMap, List.mem_range]
  constructor
  · rintro ⟨r, hr, hm⟩
    rw [lookupRange_mem hB _ _ _ (by omega)] at hm
    obtain ⟨t, ht, he⟩ := hm
    exact ⟨r, hr, t, by simpa using ht, by simpa using he⟩
  · rintro ⟨r, hr, t, ht, he⟩
    refine ⟨r, hr, ?_⟩
    rw [lookupRange_mem hB _ _ _ (by omega)]
    exact ⟨t, by simpa using ht, by simpa using he⟩

theorem lookupRange_length {B i start len : Nat} (hB : 0 < B) :
    ∀ fuel j, len ≤ j + fuel → (lookupRange B i start len fuel j).length = gridSize (len - j) B := by
  intro fuel
  induction fuel with
  | zero =>
    intro j hf
    simp [lookupRange, gridSize, show len - j = 0 by omega]
  | succ fuel ih =>
    intro j hf
    unfold lookupRange
    split
    · next hlt =>
      rw [List.length_cons, ih (j + B) (by omega)]
      unfold gridSize
      by_cases hBl : B ≤ len - j
      · have e : len - j = (len - (j + B)) + B := by omega
        have h1 : (len - j) / B = (len - (j + B)) / B + 1 := by
          rw [e, Nat.add_div_right _ hB]
        have h2 : (len - j) % B = (len - (j + B)) % B := by
          rw [e, Nat.add_mod_right]
        rw [h1, h2]; omega
      · have e : len - (j + B) = 0 := by omega
        rw [e, Nat.div_eq_of_lt (show len - j < B by omega),
          Nat.mod_eq_of_lt (show len - j < B by omega),
          if_neg (show ¬ (len - j = 0) by omega)]
        simp
    · next hlt =>
      simp [gridSize, show len - j = 0 by omega]

theorem nblocks_eq {B n : Nat} (hB : 0 < B) (rangesX : Mem Nat) :
    nblocks B n rangesX = (lookupTable B n rangesX).length := by
  unfold nblocks lookupTable
  induction n with
  | zero => simp
  | succ n ih =>
    rw [forRange_succ, ih, List.range_succ, List.flatMap_append, List.length_append]
    simp only [List.flatMap_cons, List.flatMap_nil, List.append_nil]
    rw [lookupRange_length hB _ _ (by omega)]
    rfl

theorem lookupRange_nodup {B i start len : Nat} (hB : 0 < B) :
    ∀ fuel j, len ≤ j + fuel → (lookupRange B i start len fuel j).Nodup := by
  intro fuel
  induction fuel with
  | zero => intro j _; exact List.nodup_nil
  | succ fuel ih =>
    intro j hf
    unfold lookupRange
    split
    · rw [List.nodup_cons]
      refine ⟨?_, ih _ (by omega)⟩
      rw [lookupRange_mem hB _ _ _ (by omega)]
      rintro ⟨t, _, he⟩
      have := congrArg (fun b : Nat × Nat × Nat => b.2.1) he
      simp only at this
      omega
    · exact List.nodup_nil

theorem lookupTable_nodup {B n : Nat} (hB : 0 < B) (rangesX : Mem Nat) :
    (lookupTable B n rangesX).Nodup := by
  unfold lookupTable
  rw [List.nodup_flatMap]
  refine ⟨fun r _ => lookupRange_nodup hB _ _ (by omega), ?_⟩
  refine List.nodup_range.imp ?_
  intro a b hab blk ha hb
  simp only at ha hb
  rw [lookupRange_mem hB _ _ _ (by omega)] at ha hb
  obtain ⟨t, _, h1⟩ := ha
  obtain ⟨t', _, h2⟩ := hb
  rw [h1] at h2
  exact hab (congrArg (fun b : Nat × Nat × Nat => b.1) h2)

/-- Two blocks of the table that contain the same row and belong to the same range are equal. -/
theorem lookup_unique {B t t' start k k' : Nat} (hk : k < B) (hk' : k' < B)
    (h : start + t * B + k = start + t' * B + k') : t = t' ∧ k = k' := by
  have : t = t' := by
    rcases Nat.lt_trichotomy t t' with hlt | heq | hgt
    · have := Nat.mul_le_mul_right B (show t + 1 ≤ t' by omega)
      rw [Nat.succ_mul t] at this; omega
    · exact heq
    · have := Nat.mul_le_mul_right B (show t' + 1 ≤ t by omega)
      rw [Nat.succ_mul t'] at this; omega
  subst this
  exact ⟨rfl, by omega⟩

/-- Row `i` of range `r` is computed by one thread of one block. -/
theorem lookup_cover {B n : Nat} (hB : 0 < B) (rangesX : Mem Nat) {r i : Nat} (hr : r < n)
    (hi : rangesX (2 * r) ≤ i ∧ i < rangesX (2 * r + 1)) :
    ∃ (b k : Nat) (blk : Nat × Nat × Nat), (lookupTable B n rangesX)[b]? = some blk ∧ k < B ∧ blk.1 = r ∧
      rangesX (2 * r) ≤ blk.2.1 ∧ blk.2.1 + k = i ∧ i < blk.2.2 := by
  have hdm := Nat.div_add_mod (i - rangesX (2 * r)) B
  have hml := Nat.mod_lt (i - rangesX (2 * r)) hB
  rw [Nat.mul_comm] at hdm
  obtain ⟨b, hb⟩ := List.mem_iff_getElem?.mp ((lookupTable_mem hB rangesX _).mpr
    ⟨r, hr, (i - rangesX (2 * r)) / B, by omega, rfl⟩)
  exact ⟨b, (i - rangesX (2 * r)) % B, _, hb, hml, rfl, by simp, by simp only; omega, by
    simp only; omega⟩

/-- Rows written by a block belong to its range. -/
theorem lookup_inside {B n : Nat} (hB : 0 < B) (rangesX : Mem Nat) {b : Nat} {blk : Nat × Nat × Nat}
    (h : (lookupTable B n rangesX)[b]? = some blk) :
    blk.1 < n ∧ rangesX (2 * blk.1) ≤ blk.2.1 ∧ blk.2.1 < blk.2.2 ∧
      blk.2.2 ≤ rangesX (2 * blk.1 + 1) ∧ blk.2.2 ≤ blk.2.1 + B := by
  obtain ⟨r, hr, t, ht, rfl⟩ := (lookupTable_mem hB rangesX _).mp (List.mem_of_getElem? h)
  simp only
  refine ⟨hr, by omega, ?_, ?_, ?_⟩ <;> omega

/-- The thread that computes row `i` of range `r` is unique. -/
theorem lookup_thread_unique {B n : Nat} (hB : 0 < B) (rangesX : Mem Nat) {b b' k k' : Nat}
    {blk blk' : Nat × Nat × Nat} (h : (lookupTable B n rangesX)[b]? = some blk)
    (h' : (lookupTable B n rangesX)[b']? = some blk') (hk : k < B) (hk' : k' < B)
    (hr : blk.1 = blk'.1) (hi : blk.2.1 + k = blk'.2.1 + k') : b = b' ∧ k = k' := by
  obtain ⟨r, _, t, ht, e⟩ := (lookupTable_mem hB rangesX _).mp (List.mem_of_getElem? h)
  obtain ⟨r', _, t', ht', e'⟩ := (lookupTable_mem hB rangesX _).mp (List.mem_of_getElem? h')
  have hrr : r = r' := by rw [e, e'] at hr; exact hr
  subst hrr
  have hi2 := hi
  rw [e, e'] at hi2
  simp only at hi2
  obtain ⟨rfl, rfl⟩ := lookup_unique hk hk' hi2
  refine ⟨?_, rfl⟩
  have hb : blk = blk' := by rw [e, e']
  subst hb
  have hlt : b < (lookupTable B n rangesX).length := by
    by_contra hh
    rw [List.getElem?_eq_none (by omega)] at h
    exact absurd h (by simp)
  exact (List.getElem?_inj hlt (lookupTable_nodup hB rangesX)).mp (h.trans h'.symm)

/-! ### Executions as sequences of writes -/

/-- The writes of the ranges `0..n-1` on the CPU. -/
def cpuRangeWrites (R : Red V) (S : Scheme V) (P : RProblem V) (junk : Nat → Nat → Mem V)
    (order : Nat → List Nat) (n : Nat) : List (Nat × (Mem V → Mem V)) :=
  (List.range n).flatMap (fun r' =>
      (order r').map (fun i => (i, cpuRangeRow R S P.ax.rangesY (P.ax.startSlice r')
        (P.ax.endSlice r') (cpuRangeF P (junk i) r' i) (cpuRangeIx P) (junk i 3) (junk i 4))))

theorem cpuConvRanges_writes (R : Red V) (S : Scheme V) (P : RProblem V)
    (junk : Nat → Nat → Mem V) (order : Nat → List Nat) (out : Mem V) :
    cpuConvRanges R S P junk order out =
      runWrites R.dim (cpuRangeWrites R S P junk order P.ax.nranges)
        (runWrites R.dim ((List.range P.outRows).map
          (fun i => (i, R.fin (R.init (junk i 0))))) out) := by
  unfold cpuConvRanges
  have h0 : forRange P.outRows (fun i out =>
      onSlice (i * R.dim) (R.fin (R.init (junk i 0))) out) out =
      runWrites R.dim ((List.range P.outRows).map (fun i => (i, R.fin (R.init (junk i 0))))) out := by
    simp only [forRange, runWrites, List.foldl_map]
  simp only [h0]
  generalize runWrites R.dim ((List.range P.outRows).map
    (fun i => (i, R.fin (R.init (junk i 0))))) out = out1
  have : ∀ n, forRange n (fun r out => (order r).foldl (fun out i =>
      onSlice (i * R.dim) (cpuRangeRow R S P.ax.rangesY (P.ax.startSlice r) (P.ax.endSlice r)
        (cpuRangeF P (junk i) r i) (cpuRangeIx P) (junk i 3) (junk i 4)) out) out) out1 =
      runWrites R.dim (cpuRangeWrites R S P junk order n) out1 := by
    intro n
    induction n with
    | zero => rfl
    | succ n ih =>
      rw [forRange_succ, ih]
      simp only [cpuRangeWrites, List.range_succ, List.flatMap_append, runWrites_append]
      simp only [List.flatMap_cons, List.flatMap_nil, List.append_nil, runWrites,
        List.foldl_map]
  exact this _

theorem mem_cpuRangeWrites {R : Red V} {S : Scheme V} {P : RProblem V}
    {junk : Nat → Nat → Mem V} {order : Nat → List Nat} {n : Nat} {w : Nat × (Mem V → Mem V)}
    (hw : w ∈ cpuRangeWrites R S P junk order n) : ∃ r' < n, ∃ i' ∈ order r', w = (i',
        cpuRangeRow R S P.ax.rangesY (P.ax.startSlice r')
        (P.ax.endSlice r') (cpuRangeF P (junk i') r' i') (cpuRangeIx P) (junk i' 3) (junk i' 4)) := by
  simp only [cpuRangeWrites, List.mem_flatMap, List.mem_range, List.mem_map] at hw
  obtain ⟨r', hr', i', hi', rfl⟩ := hw
  exact ⟨r', hr', i', hi', rfl⟩

/-- The writes of the threads `sched` on the GPU. -/
def gpuRangeWrites (R : Red V) (S : Scheme V) (P : RProblem V) (B : Nat)
    (ord : Nat → Nat → Nat → List Nat) (junk : Nat → Nat → Mem V)
    (sched : List (Nat × Nat)) : List (Nat × (Mem V → Mem V)) :=
  sched.filterMap (fun bt =>
      match (lookupTable B P.ax.nranges P.ax.rangesX)[bt.1]? with
      | none => none
      | some blk => if blk.2.1 + bt.2 < blk.2.2 then
          some (blk.2.1 + bt.2, gpuRangesThread R S P B blk bt.2 (ord bt.1) (junk (blk.2.1 + bt.2)))
        else none)

theorem gpuRanges_writes (R : Red V) (S : Scheme V) (P : RProblem V) (B : Nat)
    (ord : Nat → Nat → Nat → List Nat) (junk : Nat → Nat → Mem V)
    (sched : List (Nat × Nat)) (out : Mem V) :
    gpuRanges R S P B ord junk sched out =
      runWrites R.dim (gpuRangeWrites R S P B ord junk sched) out := by
  unfold gpuRanges
  simp only [gpuRangeWrites, runWrites, List.foldl_filterMap]
  apply foldl_congr_mem
  intro o bt _
  cases hl : (lookupTable B P.ax.nranges P.ax.rangesX)[bt.1]? with
  | none => simp only
  | some blk =>
    simp only
    split <;> rfl

theorem mem_gpuRangeWrites {R : Red V} {S : Scheme V} {P : RProblem V} {B : Nat}
    {ord : Nat → Nat → Nat → List Nat} {junk : Nat → Nat → Mem V}
    {sched : List (Nat × Nat)} {w : Nat × (Mem V → Mem V)}
    (hw : w ∈ gpuRangeWrites R S P B ord junk sched) :
    ∃ (b k : Nat) (blk : Nat × Nat × Nat), (b, k) ∈ sched ∧
      (lookupTable B P.ax.nranges P.ax.rangesX)[b]? = some blk ∧ blk.2.1 + k < blk.2.2 ∧
        w = (blk.2.1 + k, gpuRangesThread R S P B blk k (ord b) (junk (blk.2.1 + k))) := by
  obtain ⟨⟨b, k⟩, hbt, he⟩ := List.mem_filterMap.mp hw
  cases hl : (lookupTable B P.ax.nranges P.ax.rangesX)[b]? with
  | none => simp [hl] at he
  | some blk =>
    simp only [hl] at he
    split at he
    · next hlt => exact ⟨b, k, blk, hbt, hl, hlt, (Option.some.inj he).symm⟩
    · simp at he

/-! ### All executions -/

theorem rexec_correct {E} {R : Red V} {S : Scheme V} {A Bf G} (h : LawfulScheme E R S A Bf G)
    (hf : FinLocal R) {P : RProblem V} (hP : WfRProblem P) (hb : BatchLike P)
    (hwf : ∀ r < P.ax.nranges, ∀ sl, P.ax.startSlice r ≤ sl → sl < P.ax.endSlice r →
      P.ax.rangesY (2 * sl) ≤ P.ax.rangesY (2 * sl + 1))
    {out out' : Mem V} (he : RExec R S P out out')
    {r i : Nat} (hr : r < P.ax.nranges) (hi : P.ax.rangesX (2 * r) ≤ i ∧ i < P.ax.rangesX (2 * r + 1))
    (huniq : ∀ r' < P.ax.nranges, P.ax.rangesX (2 * r') ≤ i → i < P.ax.rangesX (2 * r' + 1) → r' = r)
    (hne : E ∨ P.items r i ≠ []) :
    ∃ acc, A (P.items r i) acc ∧ ∀ k < R.dim, ∀ o, out' (i * R.dim + k) = R.fin acc o k := by
  cases he with
  | cpu junk order horder =>
    obtain ⟨acc, ha, hrow1⟩ := cpuRangeRow_correct h P.ax.rangesY (P.ax.startSlice r)
      (P.ax.endSlice r) (cpuRangeF P (junk i) r i) (P.F r i) (cpuRangeIx P)
      (fun slice hsl j => cpuRangeF_eq hP hb _ hr i j slice hsl) hne (junk i 3) (junk i 4)
    refine ⟨acc, ha, fun k hk o => ?_⟩
    rw [cpuConvRanges_writes]
    apply runWrites_row (val := R.fin acc o) (o := o)
    · intro w hw
      obtain ⟨r', hr', i', hi', rfl⟩ := mem_cpuRangeWrites hw
      exact hf.rowLocal _
    · refine ⟨(i, cpuRangeRow R S P.ax.rangesY (P.ax.startSlice r)
          (P.ax.endSlice r) (cpuRangeF P (junk i) r i) (cpuRangeIx P) (junk i 3) (junk i 4)), ?_, rfl⟩
      · simp only [cpuRangeWrites, List.mem_flatMap, List.mem_range, List.mem_map]
        refine ⟨r, hr, i, ?_, rfl⟩
        rw [(horder r hr).mem_iff, List.mem_range'_1]
        omega
    · intro w hw hwi k' hk'
      obtain ⟨r', hr', i', hi', rfl⟩ := mem_cpuRangeWrites hw
      simp only at hwi
      subst hwi
      have hm := (horder r' hr').mem_iff.mp hi'
      rw [List.mem_range'_1] at hm
      have := huniq r' hr' hm.1 (by omega)
      subst this
      simp only [hrow1]
    · exact hk
  | gpu B hB ord hord junk sched hsched =>
    have hord' : ∀ b index tile, (ord b index tile).Nodup ∧ ∀ t < B, t ∈ ord b index tile :=
      fun b index tile => ⟨(hord b index tile).nodup_iff.mpr List.nodup_range,
        fun t ht => (hord b index tile).mem_iff.mpr (by simpa using ht)⟩
    have hmemL : ∀ w ∈ gpuRangeWrites R S P B ord junk sched, ∃ (b k : Nat)
        (blk : Nat × Nat × Nat), (lookupTable B P.ax.nranges P.ax.rangesX)[b]? = some blk ∧ k < B ∧
        blk.2.1 + k < blk.2.2 ∧
        w = (blk.2.1 + k, gpuRangesThread R S P B blk k (ord b) (junk (blk.2.1 + k))) := by
      intro w hw
      obtain ⟨b, k, blk, hbt, hl, hlt, rfl⟩ := mem_gpuRangeWrites hw
      have hk : k < B := by
        have := hsched.mem_iff.mp hbt
        simpa using (List.mem_product.mp this).2
      exact ⟨b, k, blk, hl, hk, hlt, rfl⟩
    obtain ⟨b, k, blk, hblk, hk, hr1, hsx, hik, hlt⟩ := lookup_cover hB P.ax.rangesX hr hi
    obtain ⟨r0, sx, ex⟩ := blk
    simp only at hr1 hsx hik hlt
    subst hr1
    obtain ⟨acc, ha, hth⟩ := gpuRangesThread_correct h hP hb hr (hwf r0 hr) hB sx ex k hsx (ord b)
      (hord' b) (junk i)
    rw [hik] at ha
    refine ⟨acc, ha, fun c hc o => ?_⟩
    rw [gpuRanges_writes]
    apply runWrites_row (val := R.fin acc o) (o := o)
    · intro w hw
      obtain ⟨b', k', blk', _, _, _, rfl⟩ := hmemL w hw
      exact hf.rowLocal _
    · refine ⟨(i, gpuRangesThread R S P B (r0, sx, ex) k (ord b) (junk i)), ?_, rfl⟩
      apply List.mem_filterMap.mpr
      refine ⟨(b, k), ?_, ?_⟩
      · rw [hsched.mem_iff]
        apply List.mem_product.mpr
        refine ⟨?_, by simpa using hk⟩
        rw [List.mem_range]
        by_contra hh
        rw [List.getElem?_eq_none (by omega)] at hblk
        exact absurd hblk (by simp)
      · simp only [hblk, hik, if_pos hlt]
    · intro w hw hwi c' _
      obtain ⟨b', k', blk', hl', hk', hlt', rfl⟩ := hmemL w hw
      simp only at hwi
      obtain ⟨g1, g2, g3, g4, g5⟩ := lookup_inside hB P.ax.rangesX hl'
      have hr' := huniq blk'.1 g1 (by omega) (by omega)
      obtain ⟨rfl, rfl⟩ := lookup_thread_unique hB P.ax.rangesX hblk hl' hk hk' hr'.symm
        (by simp only; omega)
      have : blk' = (r0, sx, ex) := Option.some.inj (hl'.symm.trans hblk)
      subst this
      simp only [hik, hth]
    · exact hc

end Verif
