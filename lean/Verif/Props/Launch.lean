import Verif.Proofs.Launch

/-!
# C76: GPU calls are launched within the limits of their device

A process creates objects for its routines, each on one of the devices of the machine, and calls them.
-/

namespace Verif.Launch

theorem step_call {devs : List Props} {p : Props} {s : State} {m d : Nat} {c : Call} (hm : s.mods[m]? = some d)
    (hd : devs[d]? = some p) {gs : List Grid} (hg : grids s.glob c = .ok gs) :
    (step devs s (.call m c)).2 = if gs.all (accepts p) then .ok gs else .error .driver := by
  simp [step, hm, hd, hg]

/-- **C76 (partial).** Whatever the history of the process, if all the objects were created on devices with the same
limits and if one point of the reduced axis fits in the shared memory, then a call uses blocks of at least one thread,
within the number of threads and the shared memory of its device; the driver accepts it if and only if the result is not
empty and the numbers of blocks are not too large; and then every row of the result is the row of a thread. -/
theorem C76_partial (devs : List Props) (p : Props) (hist : List Event)
    (hsame : ∀ d q, Event.create d ∈ hist → devs[d]? = some q → q = p) (m d : Nat)
    (hm : (run devs hist).mods[m]? = some d) (c : Call) (hfit : Fits p c) (hsmall : Small c) :
    ∃ B, 0 < B ∧ B ≤ c.cuda ∧ B ≤ p.threads ∧ B * (c.dimY * c.size) ≤ p.shared ∧
      (¬ GridOk c B → (step devs (run devs hist) (.call m c)).2 = .error .driver) ∧
      (GridOk c B → ∃ gs, (step devs (run devs hist) (.call m c)).2 = .ok gs ∧ gs ≠ [] ∧
        ∀ g ∈ gs, accepts p g = true ∧ g.block = B ∧ (c.mode = .simple ∨ c.mode = .twoD → Covers g c.rows)) := by
  obtain ⟨h1, h2⟩ := run_inv devs p hist hsame
  have hd := h1 d (List.mem_of_getElem? hm)
  have hglob : (run devs hist).glob = p := h2 (by intro h; simp [h] at hm)
  generalize run devs hist = s at hm hglob
  obtain ⟨b0, b1, b2, b3⟩ := blockSize_bounds hfit
  refine ⟨blockSize p c, b0, b1, b2, b3, ?_⟩
  have hsz : launchSizes c.tagI c.M c.N = (c.rows, c.cols) := by
    unfold launchSizes Call.rows Call.cols; split_ifs <;> rfl
  have hmul : blockSize p c * c.dimY * c.size ≤ p.shared := by rw [Nat.mul_assoc]; exact b3
  cases hmode : c.mode with
  | simple =>
    have hsmall : c.rows ≤ 2 ^ 32 := by simpa [Small, hmode] using hsmall
    have hg : grids s.glob c = .ok [⟨u32 (blocks c.rows (blockSize p c)), 1, blockSize p c,
        blockSize p c * c.dimY * c.size⟩] := by
      simp only [grids, hglob, hsz, hmode, ceilDiv_eq b0]; rfl
    rw [step_call hm hd hg]
    simp only [GridOk, hmode, List.all_cons, List.all_nil, Bool.and_true]
    have hp := blocks_pos (n := c.rows) b0
    have hle := blocks_le (n := c.rows) b0
    have hge := le_blocks (n := c.rows) b0
    generalize blocks c.rows (blockSize p c) = k at *
    constructor
    · intro h
      rw [if_neg]
      simp only [accepts, decide_eq_true_eq]
      unfold u32
      omega
    · intro h
      have hk : u32 k = k := u32_small (by omega)
      have ha : accepts p ⟨u32 k, 1, blockSize p c, blockSize p c * c.dimY * c.size⟩ = true := by
        simp only [accepts, decide_eq_true_eq, hk]; omega
      refine ⟨_, if_pos ha, by simp, ?_⟩
      intro g hg
      rw [List.mem_singleton] at hg
      subst hg
      exact ⟨ha, rfl, fun _ => covers_of b0 hk rfl hge hsmall⟩
  | ranges lens =>
    have hsmall : lens.sum < 2 ^ 32 := by simpa [Small, hmode] using hsmall
    have hg : grids s.glob c = .ok [⟨u32 (lens.map fun l => blocks l (blockSize p c)).sum, 1, blockSize p c,
        blockSize p c * c.dimY * c.size⟩] := by
      simp only [grids, hglob, hmode, nblocks_eq b0]; rfl
    rw [step_call hm hd hg]
    simp only [GridOk, hmode, List.all_cons, List.all_nil, Bool.and_true]
    have hle : ∀ lens : List Nat, (lens.map fun l => blocks l (blockSize p c)).sum ≤ lens.sum := by
      intro lens
      induction lens with
      | nil => simp
      | cons a l ih => simp only [List.map_cons, List.sum_cons]; exact Nat.add_le_add (blocks_le b0) ih
    have hle := hle lens
    have hp : ∀ lens : List Nat, 0 < (lens.map fun l => blocks l (blockSize p c)).sum ↔ ∃ l ∈ lens, 0 < l := by
      intro lens
      induction lens with
      | nil => simp
      | cons a l ih =>
        simp only [List.map_cons, List.sum_cons, List.mem_cons, exists_eq_or_imp, ← ih, Nat.add_pos_iff_pos_or_pos,
          blocks_pos b0]
    have hp := hp lens
    rw [← hp]
    generalize (lens.map fun l => blocks l (blockSize p c)).sum = k at *
    have hk : u32 k = k := u32_small (by omega)
    constructor
    · intro h
      rw [if_neg]
      simp only [accepts, decide_eq_true_eq, hk]
      omega
    · intro h
      have ha : accepts p ⟨u32 k, 1, blockSize p c, blockSize p c * c.dimY * c.size⟩ = true := by
        simp only [accepts, decide_eq_true_eq, hk]; omega
      refine ⟨_, if_pos ha, by simp, ?_⟩
      intro g hg
      rw [List.mem_singleton] at hg
      subst hg
      exact ⟨ha, rfl, fun h => by rcases h with h | h <;> cases h⟩
  | twoD =>
    have hsmall : c.rows < 2 ^ 32 ∧ c.cols < 2 ^ 32 ∧ c.rows * c.dimred < 2 ^ 32 := by simpa [Small, hmode] using hsmall
    have hg : grids s.glob c = .ok [⟨u32 (blocks c.rows (blockSize p c)), u32 (blocks c.cols (blockSize p c)),
        blockSize p c, blockSize p c * c.dimY * c.size⟩,
        ⟨u32 (blocks (c.rows * c.dimred) (blockSize p c)), 1, blockSize p c, 0⟩] := by
      simp only [grids, hglob, hsz, hmode, ceilDiv_eq b0]; rfl
    rw [step_call hm hd hg]
    simp only [GridOk, hmode, List.all_cons, List.all_nil, Bool.and_true]
    have hp1 := blocks_pos (n := c.rows) b0
    have hle1 := blocks_le (n := c.rows) b0
    have hge1 := le_blocks (n := c.rows) b0
    have hp2 := blocks_pos (n := c.cols) b0
    have hle2 := blocks_le (n := c.cols) b0
    have hp3 := blocks_pos (n := c.rows * c.dimred) b0
    have hle3 := blocks_le (n := c.rows * c.dimred) b0
    have hge3 := le_blocks (n := c.rows * c.dimred) b0
    have hr : 0 < c.rows * c.dimred ↔ 0 < c.rows ∧ 0 < c.dimred := by
      rw [Nat.pos_iff_ne_zero, Nat.mul_ne_zero_iff]; omega
    generalize blocks c.rows (blockSize p c) = k1 at *
    generalize blocks c.cols (blockSize p c) = k2 at *
    generalize blocks (c.rows * c.dimred) (blockSize p c) = k3 at *
    have e1 : u32 k1 = k1 := u32_small (by omega)
    have e2 : u32 k2 = k2 := u32_small (by omega)
    have e3 : u32 k3 = k3 := u32_small (by omega)
    constructor
    · intro h
      rw [if_neg]
      simp only [accepts, Bool.and_eq_true, decide_eq_true_eq, e1, e2, e3]
      omega
    · intro h
      have ha : accepts p ⟨u32 k1, u32 k2, blockSize p c, blockSize p c * c.dimY * c.size⟩ = true := by
        simp only [accepts, decide_eq_true_eq, e1, e2]; omega
      have hb : accepts p ⟨u32 k3, 1, blockSize p c, 0⟩ = true := by
        simp only [accepts, decide_eq_true_eq, e3]; omega
      refine ⟨_, if_pos (by rw [ha, hb]; rfl), by simp, ?_⟩
      intro g hg
      simp only [List.mem_cons, List.not_mem_nil, or_false] at hg
      rcases hg with rfl | rfl
      · exact ⟨ha, rfl, fun _ => covers_of b0 e1 rfl hge1 (by omega)⟩
      · refine ⟨hb, rfl, fun _ => covers_of b0 e3 rfl (le_trans ?_ hge3) (by omega)⟩
        exact Nat.le_mul_of_pos_right _ h.2.2.1

/-- The usual limits. -/
def usual : Props := ⟨1024, 49152⟩

/-- A sum over 10^6 points `y` of dimension 3, in `float32`, for 5000 points `x`, after an object has been created on each
of the two devices of the machine: the hypotheses hold and the call is accepted. -/
example : ∃ gs, (step [usual, usual] (run [usual, usual] [.create 0, .create 1])
      (.call 0 ⟨.simple, false, 192, 3, 4, 1, 0, 5000, 1000000⟩)).2 = .ok gs ∧
    ∀ g ∈ gs, accepts usual g = true ∧ Covers g 5000 := by
  have hs : ∀ d q, Event.create d ∈ [Event.create 0, Event.create 1] → [usual, usual][d]? = some q → q = usual := by
    intro d q _ h
    rcases d with _ | _ | d
    · simpa using h.symm
    · simpa using h.symm
    · simp at h
  obtain ⟨B, h1, h2, h3, h4, -, h⟩ := C76_partial [usual, usual] usual [.create 0, .create 1] hs 0 0 rfl
    ⟨.simple, false, 192, 3, 4, 1, 0, 5000, 1000000⟩
    ⟨by decide, by decide, by decide, by decide, by decide⟩ (by simp [Small, Call.rows])
  obtain ⟨gs, e, -, hg⟩ := h ⟨by decide, lt_of_le_of_lt (blocks_le h1) (by decide)⟩
  exact ⟨gs, e, fun g hgm => ⟨(hg g hgm).1, (hg g hgm).2.2 (Or.inl rfl)⟩⟩

/-- The statement of C76 without exception: every call of an object is accepted by its device, and every row of its
result is the row of a thread. -/
def AllLaunched : Prop :=
  ∀ (devs : List Props) (hist : List Event) (m d : Nat) (c : Call), (∀ q ∈ devs, 0 < q.threads ∧ 0 < q.shared) →
    0 < c.cuda → 0 < c.size → (run devs hist).mods[m]? = some d →
    ∃ gs, (step devs (run devs hist) (.call m c)).2 = .ok gs ∧ (c.mode = .simple → ∀ g ∈ gs, Covers g c.rows)

/-- If one point of the reduced axis does not fit in the shared memory (12289 numbers of 4 bytes for 49152 bytes), the
size of the blocks is zero and the process stops with a division by zero, whatever the history. -/
theorem not_C76_point (devs : List Props) (p : Props) (hist : List Event)
    (hsame : ∀ d q, Event.create d ∈ hist → devs[d]? = some q → q = p) (m d : Nat)
    (hm : (run devs hist).mods[m]? = some d) (c : Call) (hc : c.chunk = false) (hmode : c.mode = .simple ∨ c.mode = .twoD)
    (h : p.shared < c.dimY * c.size) : (step devs (run devs hist) (.call m c)).2 = .error .divZero := by
  obtain ⟨h1, h2⟩ := run_inv devs p hist hsame
  have hd := h1 d (List.mem_of_getElem? hm)
  have hglob : (run devs hist).glob = p := h2 (by intro h; simp [h] at hm)
  generalize run devs hist = s at hm hglob
  have hb : blockSize p c = 0 := by
    simp only [blockSize, hc, if_true]
    rw [Nat.div_eq_of_lt (by omega)]
    omega
  have hg : grids s.glob c = .error .divZero := by
    rcases hmode with hmode | hmode <;> simp only [grids, hglob, hb, hmode] <;> rfl
  simp [step, hm, hd, hg]

/-- The hypotheses hold for points of dimension 12289 in `float32`. -/
example (M N : Nat) : (step [usual] (run [usual] [.create 0])
    (.call 0 ⟨.simple, false, 192, 12289, 4, 1, 0, M, N⟩)).2 = .error .divZero := by
  refine not_C76_point [usual] usual [.create 0] (fun d q hd h => ?_) 0 0 rfl
    ⟨.simple, false, 192, 12289, 4, 1, 0, M, N⟩ rfl (Or.inl rfl) (show 49152 < 12289 * 4 by omega)
  simp only [List.mem_singleton, Event.create.injEq] at hd
  subst hd
  simpa using h.symm

/-- A result without rows: the launch is refused. -/
theorem not_C76_empty (N : Nat) :
    (step [usual] (run [usual] [.create 0]) (.call 0 ⟨.simple, false, 192, 3, 4, 1, 0, 0, N⟩)).2 = .error .driver := by
  simp [step, run, State.init, setGpuProps, usual, grids, blockSize, launchSizes, ceilDiv, u32, accepts]

/-- With the 2D scheme, 12582721 points in the reduced axis (more than 65535 blocks of 192): the launch is refused. -/
theorem not_C76_2d : (step [usual] (run [usual] [.create 0])
    (.call 0 ⟨.twoD, false, 192, 3, 4, 1, 0, 1000, 12582721⟩)).2 = .error .driver := by decide +kernel

/-- Two devices with different limits: the global variables are set when an object is created, not at each call. A call
of the object of the first device is accepted, and is refused after the creation of an object on the second device. -/
theorem not_C76_devices (M : Nat) (hM : 0 < M) (hM' : M < 2 ^ 31) :
    let devs := [usual, ⟨1024, 65536⟩]
    let c : Call := ⟨.simple, false, 192, 100, 4, 1, 0, M, 1000⟩
    (∃ gs, (step devs (run devs [.create 0]) (.call 0 c)).2 = .ok gs) ∧
      (step devs (run devs [.create 0, .create 1]) (.call 0 c)).2 = .error .driver := by
  intro devs c
  constructor
  · obtain ⟨B, h1, h2, h3, h4, -, h⟩ := C76_partial devs usual [.create 0]
      (by
        intro d q hd h
        simp only [List.mem_singleton, Event.create.injEq] at hd
        subst hd
        simpa [devs] using h.symm) 0 0 rfl c
      ⟨by simp [c], by decide, by simp [c, usual], by decide, by simp [c]⟩
      (by simp [Small, Call.rows, c]; omega)
    obtain ⟨gs, e, -⟩ := h ⟨hM, lt_of_le_of_lt (blocks_le h1) hM'⟩
    exact ⟨gs, e⟩
  · have hb : blockSize (⟨1024, 65536⟩ : Props) c = 163 := by simp [blockSize, c]
    have hg : grids (⟨1024, 65536⟩ : Props) c = .ok [⟨u32 (blocks M 163), 1, 163, 163 * 100 * 4⟩] := by
      simp only [grids, hb]
      simp only [c, launchSizes, ceilDiv_eq (show 0 < 163 by decide)]
      rfl
    rw [step_call (devs := devs) (p := usual) (s := run devs [.create 0, .create 1]) (m := 0) (d := 0) rfl rfl hg]
    rw [if_neg]
    simp [accepts, usual]

/-- On a machine with 13 devices the last one cannot be used. -/
theorem not_C76_thirteen (s : State) :
    (step (List.replicate 13 usual) s (.create 12)).2 = .error .props := rfl

/-- With `2^32 + 1` rows (`float32`, dimension 3) the launch is accepted, but no thread computes the last row: the number
of the row is computed with 32 bits. -/
theorem not_C76_rows : ∃ g, (step [usual] (run [usual] [.create 0])
      (.call 0 ⟨.simple, false, 192, 3, 4, 1, 0, 2 ^ 32 + 1, 1000⟩)).2 = .ok [g] ∧ ¬ Covers g (2 ^ 32 + 1) := by
  refine ⟨⟨22369622, 1, 192, 2304⟩, by decide +kernel, fun h => ?_⟩
  obtain ⟨b, _, t, _, e⟩ := h (2 ^ 32) (by decide)
  have h1 : rowOf b 192 t < 2 ^ 32 := Nat.mod_lt _ (by decide)
  dsimp only at e
  omega

/-- **C76 fails.** -/
theorem not_C76 : ¬ AllLaunched := by
  intro h
  obtain ⟨gs, e, -⟩ := h [usual] [.create 0] 0 0 ⟨.simple, false, 192, 12289, 4, 1, 0, 1, 1⟩ (by decide) (by decide)
    (by decide) rfl
  rw [not_C76_point [usual] usual [.create 0] ?_ 0 0 rfl
    ⟨.simple, false, 192, 12289, 4, 1, 0, 1, 1⟩ rfl (Or.inl rfl) (show 49152 < 12289 * 4 by omega)] at e
  · cases e
  · intro d q hd h
    simp only [List.mem_singleton, Event.create.injEq] at hd
    subst hd
    simpa using h.symm

end Verif.Launch
