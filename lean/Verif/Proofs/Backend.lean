import Verif.Model.Backend

/-!
# Choice of the backend and of the device: the tags of a call, its device and its kernel
-/

namespace Verif.Backend

/-! ### The tags -/

theorem findMem_ok {cfg : Config} {vars : List Arr} {m : ℕ} (h : findMem cfg vars = .ok m) :
    (m = 0 ∧ ∀ a ∈ vars, a.loc = .host) ∨ (m = 1 ∧ ∀ a ∈ vars, a.loc ≠ .host) := by
  unfold findMem at h
  split at h
  · rename_i hn
    left
    refine ⟨by injection h with h; exact h.symm, fun a ha => ?_⟩
    have := List.all_eq_true.mp hn a ha
    cases a <;> simp_all [Arr.isNumpy, Arr.loc]
  · split at h
    · split at h
      · split at h
        · rename_i hd
          right
          refine ⟨by injection h with h; exact h.symm, fun a ha => ?_⟩
          have := List.all_eq_true.mp hd a ha
          simpa [isOnDevice] using this
        · split at h
          · rename_i hd
            left
            refine ⟨by injection h with h; exact h.symm, fun a ha => ?_⟩
            by_contra hne
            have : vars.any isOnDevice = true := List.any_eq_true.mpr ⟨a, ha, by simpa [isOnDevice] using hne⟩
            simp [this] at hd
          · exact absurd h (by simp)
      · exact absurd h (by simp)
    · exact absurd h (by simp)

/-- The tags of the nine options. -/
inductive Tags (cfg : Config) (vars : List Arr) : String → ℕ → ℕ → ℕ → Prop
  | auto {m} : findMem cfg vars = .ok m → Tags cfg vars "auto" (if cfg.gpuAvailable then 1 else 0) 0 m
  | cpu {m} : findMem cfg vars = .ok m → Tags cfg vars "CPU" 0 0 m
  | gpu {m} : findMem cfg vars = .ok m → Tags cfg vars "GPU" 1 0 m
  | gpu1 {m} : findMem cfg vars = .ok m → Tags cfg vars "GPU_1D" 1 0 m
  | gpu2 {m} : findMem cfg vars = .ok m → Tags cfg vars "GPU_2D" 1 1 m
  | gpu1d : Tags cfg vars "GPU_1D_device" 1 0 1
  | gpu1h : Tags cfg vars "GPU_1D_host" 1 0 0
  | gpu2d : Tags cfg vars "GPU_2D_device" 1 1 1
  | gpu2h : Tags cfg vars "GPU_2D_host" 1 1 0

theorem defineTag_auto (cfg : Config) (vars : List Arr) : defineTag cfg "auto" vars =
    (findMem cfg vars).map (fun m => (if cfg.gpuAvailable then 1 else 0, 0, m)) := by
  have h1 : "auto" ∈ options := by decide +kernel
  simp only [defineTag, h1, not_true_eq_false, if_false, if_true]
  cases findMem cfg vars <;> rfl

theorem defineTag_cpu (cfg : Config) (vars : List Arr) : defineTag cfg "CPU" vars =
    (findMem cfg vars).map (fun m => (0, 0, m)) := by
  have h1 : "CPU" ∈ options := by decide +kernel
  have h2 : ¬ "CPU" = "auto" := by decide +kernel
  have h3 : splitUnderscore "CPU".toList = [['C', 'P', 'U']] := by decide +kernel
  simp only [defineTag, h1, h2, h3, not_true_eq_false, if_false]
  cases findMem cfg vars <;> rfl

theorem defineTag_gpu (cfg : Config) (vars : List Arr) : defineTag cfg "GPU" vars =
    (findMem cfg vars).map (fun m => (1, 0, m)) := by
  have h1 : "GPU" ∈ options := by decide +kernel
  have h2 : ¬ "GPU" = "auto" := by decide +kernel
  have h3 : splitUnderscore "GPU".toList = [['G', 'P', 'U']] := by decide +kernel
  simp only [defineTag, h1, h2, h3, not_true_eq_false, if_false]
  cases findMem cfg vars <;> rfl

theorem defineTag_gpu1 (cfg : Config) (vars : List Arr) : defineTag cfg "GPU_1D" vars =
    (findMem cfg vars).map (fun m => (1, 0, m)) := by
  have h1 : "GPU_1D" ∈ options := by decide +kernel
  have h2 : ¬ "GPU_1D" = "auto" := by decide +kernel
  have h3 : splitUnderscore "GPU_1D".toList = [['G', 'P', 'U'], ['1', 'D']] := by decide +kernel
  simp only [defineTag, h1, h2, h3, not_true_eq_false, if_false]
  cases findMem cfg vars <;> rfl

theorem defineTag_gpu2 (cfg : Config) (vars : List Arr) : defineTag cfg "GPU_2D" vars =
    (findMem cfg vars).map (fun m => (1, 1, m)) := by
  have h1 : "GPU_2D" ∈ options := by decide +kernel
  have h2 : ¬ "GPU_2D" = "auto" := by decide +kernel
  have h3 : splitUnderscore "GPU_2D".toList = [['G', 'P', 'U'], ['2', 'D']] := by decide +kernel
  simp only [defineTag, h1, h2, h3, not_true_eq_false, if_false]
  cases findMem cfg vars <;> rfl

theorem defineTag_gpu1d (cfg : Config) (vars : List Arr) : defineTag cfg "GPU_1D_device" vars = .ok (1, 0, 1) := by
  have h1 : "GPU_1D_device" ∈ options := by decide +kernel
  have h2 : ¬ "GPU_1D_device" = "auto" := by decide +kernel
  have h3 : splitUnderscore "GPU_1D_device".toList =
    [['G', 'P', 'U'], ['1', 'D'], ['d', 'e', 'v', 'i', 'c', 'e']] := by decide +kernel
  simp only [defineTag, h1, h2, h3, not_true_eq_false, if_false]
  rfl

theorem defineTag_gpu1h (cfg : Config) (vars : List Arr) : defineTag cfg "GPU_1D_host" vars = .ok (1, 0, 0) := by
  have h1 : "GPU_1D_host" ∈ options := by decide +kernel
  have h2 : ¬ "GPU_1D_host" = "auto" := by decide +kernel
  have h3 : splitUnderscore "GPU_1D_host".toList =
    [['G', 'P', 'U'], ['1', 'D'], ['h', 'o', 's', 't']] := by decide +kernel
  simp only [defineTag, h1, h2, h3, not_true_eq_false, if_false]
  rfl

theorem defineTag_gpu2d (cfg : Config) (vars : List Arr) : defineTag cfg "GPU_2D_device" vars = .ok (1, 1, 1) := by
  have h1 : "GPU_2D_device" ∈ options := by decide +kernel
  have h2 : ¬ "GPU_2D_device" = "auto" := by decide +kernel
  have h3 : splitUnderscore "GPU_2D_device".toList =
    [['G', 'P', 'U'], ['2', 'D'], ['d', 'e', 'v', 'i', 'c', 'e']] := by decide +kernel
  simp only [defineTag, h1, h2, h3, not_true_eq_false, if_false]
  rfl

theorem defineTag_gpu2h (cfg : Config) (vars : List Arr) : defineTag cfg "GPU_2D_host" vars = .ok (1, 1, 0) := by
  have h1 : "GPU_2D_host" ∈ options := by decide +kernel
  have h2 : ¬ "GPU_2D_host" = "auto" := by decide +kernel
  have h3 : splitUnderscore "GPU_2D_host".toList =
    [['G', 'P', 'U'], ['2', 'D'], ['h', 'o', 's', 't']] := by decide +kernel
  simp only [defineTag, h1, h2, h3, not_true_eq_false, if_false]
  rfl

theorem map_ok {α β : Type} {x : Except Err α} {f : α → β} {y : β} (h : x.map f = .ok y) :
    ∃ a, x = .ok a ∧ f a = y := by
  cases x with
  | error e => simp [Except.map] at h
  | ok a => exact ⟨a, rfl, by simpa [Except.map] using h⟩

theorem defineTag_ok {cfg : Config} {b : String} {vars : List Arr} {g d m : ℕ}
    (h : defineTag cfg b vars = .ok (g, d, m)) : Tags cfg vars b g d m := by
  by_cases hb : b ∈ options
  · simp only [options, List.mem_cons, List.not_mem_nil, or_false] at hb
    rcases hb with rfl | rfl | rfl | rfl | rfl | rfl | rfl | rfl | rfl
    · rw [defineTag_auto] at h
      obtain ⟨a, h1, h2⟩ := map_ok h
      obtain ⟨rfl, rfl, rfl⟩ := by simpa using h2
      exact .auto h1
    · rw [defineTag_cpu] at h
      obtain ⟨a, h1, h2⟩ := map_ok h
      obtain ⟨rfl, rfl, rfl⟩ := by simpa using h2
      exact .cpu h1
    · rw [defineTag_gpu] at h
      obtain ⟨a, h1, h2⟩ := map_ok h
      obtain ⟨rfl, rfl, rfl⟩ := by simpa using h2
      exact .gpu h1
    · rw [defineTag_gpu1] at h
      obtain ⟨a, h1, h2⟩ := map_ok h
      obtain ⟨rfl, rfl, rfl⟩ := by simpa using h2
      exact .gpu1 h1
    · rw [defineTag_gpu1d] at h
      obtain ⟨rfl, rfl, rfl⟩ := by simpa using h
      exact .gpu1d
    · rw [defineTag_gpu1h] at h
      obtain ⟨rfl, rfl, rfl⟩ := by simpa using h
      exact .gpu1h
    · rw [defineTag_gpu2] at h
      obtain ⟨a, h1, h2⟩ := map_ok h
      obtain ⟨rfl, rfl, rfl⟩ := by simpa using h2
      exact .gpu2 h1
    · rw [defineTag_gpu2d] at h
      obtain ⟨rfl, rfl, rfl⟩ := by simpa using h
      exact .gpu2d
    · rw [defineTag_gpu2h] at h
      obtain ⟨rfl, rfl, rfl⟩ := by simpa using h
      exact .gpu2h
  · simp [defineTag, hb] at h

/-! ### The device -/

theorem setDevice_ok {cfg : Config} {g m : ℕ} {req : ℤ} {l : Loc} {ls : List Loc} {device : ℤ} {da : Loc}
    (h : setDevice cfg g m req (l :: ls) = .ok (device, da)) :
    da = l ∧ (g = 1 → m = 1 → ∀ x ∈ ls, x = l) ∧
      (g = 1 → ∀ i, l = .cuda i → cfg.defaultId = 0 → (i = 0 → req = -1 ∨ req = 0) → device = i) := by
  simp only [setDevice] at h
  split at h
  · exact absurd h (by simp)
  · rename_i hany
    have hsame : g = 1 → m = 1 → ∀ x ∈ ls, x = l := by
      rintro rfl rfl x hx
      have h1 : x.index = l.index := by
        by_contra hne
        exact hany ⟨⟨rfl, rfl⟩, List.any_eq_true.mpr ⟨x, hx, by simpa using hne⟩⟩
      cases x <;> cases l <;> simp_all [Loc.index]
    split at h
    · rename_i hreq
      cases l with
      | host =>
        simp only [Loc.index, Except.ok.injEq, Prod.mk.injEq] at h
        exact ⟨h.2.symm, hsame, fun _ i hi => by simp at hi⟩
      | cuda k =>
        cases k with
        | zero =>
          simp only [Loc.index, Except.ok.injEq, Prod.mk.injEq] at h
          refine ⟨h.2.symm, hsame, fun hg i hi hd _ => ?_⟩
          obtain rfl : 0 = i := by simpa using hi
          rw [← h.1, if_pos hg, hd]; rfl
        | succ k =>
          simp only [Loc.index, Except.ok.injEq, Prod.mk.injEq] at h
          refine ⟨h.2.symm, hsame, fun hg i hi hd _ => ?_⟩
          obtain rfl : k + 1 = i := by simpa using hi
          exact h.1.symm
    · rename_i hreq
      split at h
      · exact absurd h (by simp)
      · rename_i hne
        simp only [Except.ok.injEq, Prod.mk.injEq] at h
        refine ⟨h.2.symm, hsame, fun hg i hi hd h0 => ?_⟩
        subst hi
        rw [← h.1]
        rcases Nat.eq_zero_or_pos i with rfl | hi
        · exact (h0 rfl).resolve_left hreq
        · by_contra hr
          refine hne ⟨by simp only [Loc.index, truthyIndex]; exact decide_eq_true (by omega), ?_⟩
          simp only [Loc.index, Option.map_some, ne_eq, Option.some.injEq]
          exact fun he => hr he.symm

theorem launch_ok {cfg : Config} {c : Call} {g d m : ℕ} {device : ℤ} {da : Loc} {L : Launch}
    (h : launch cfg c g d m device da = .ok L) :
    (∃ k, chooseClass cfg g d (0 < c.nbatch || c.ranges.isSome) c.final c.chunks = .ok k ∧ L.kernel = k) ∧
      (g ≠ 0 → 0 ≤ device ∧ device < cfg.nGpus) ∧
      L.runs = (if g = 0 then .cpu else .gpu device) ∧ L.out = c.out.getD da ∧
      L.accesses = accesses g m device c.nbatch (c.args.map Arr.loc) c.ranges L.out := by
  dsimp only [launch] at h
  cases hk : chooseClass cfg g d (0 < c.nbatch || c.ranges.isSome) c.final c.chunks with
  | error e => rw [hk] at h; exact absurd h (by simp [bind, Except.bind])
  | ok k =>
    rw [hk] at h
    by_cases hd : g ≠ 0 ∧ ¬ (0 ≤ device ∧ device < cfg.nGpus)
    · simp only [bind, Except.bind, if_pos hd] at h
      exact absurd h (by simp [throw, throwThe, MonadExceptOf.throw])
    · simp only [bind, Except.bind, if_neg hd, pure, Except.pure, Except.ok.injEq] at h
      subst h
      refine ⟨⟨k, rfl, rfl⟩, fun hg => ?_, rfl, rfl, rfl⟩
      by_contra hn
      exact hd ⟨hg, hn⟩

theorem torchCall_ok {cfg : Config} {c : Call} {L : Launch} (h : torchCall cfg c = .ok L) :
    ∃ g d m device da, Tags cfg c.args c.backend g d m ∧
      setDevice cfg g m c.request (c.args.map Arr.loc) = .ok (device, da) ∧
      launch cfg c g d m device da = .ok L := by
  unfold torchCall at h
  cases ht : defineTag cfg c.backend c.args with
  | error e => rw [ht] at h; exact absurd h (by simp [bind, Except.bind])
  | ok t =>
    obtain ⟨g, d, m⟩ := t
    rw [ht] at h
    simp only [bind, Except.bind] at h
    cases hs : setDevice cfg g m c.request (c.args.map Arr.loc) with
    | error e => rw [hs] at h; exact absurd h (by simp)
    | ok t =>
      obtain ⟨device, da⟩ := t
      rw [hs] at h
      exact ⟨g, d, m, device, da, defineTag_ok ht, hs, h⟩

theorem numpyCall_ok {cfg : Config} {c : Call} {L : Launch} (h : numpyCall cfg c = .ok L) :
    ∃ g d m device, Tags cfg c.args c.backend g d m ∧ launch cfg c g d m device .host = .ok L := by
  unfold numpyCall at h
  cases ht : defineTag cfg c.backend c.args with
  | error e => rw [ht] at h; exact absurd h (by simp [bind, Except.bind])
  | ok t =>
    obtain ⟨g, d, m⟩ := t
    rw [ht] at h
    exact ⟨g, d, m, _, defineTag_ok ht, h⟩

theorem mem_rangePointers {nbatch : ℕ} {ranges : Option (List Loc)} (hbatch : nbatch = 0 ∨ ranges = none)
    {p : Option Loc} (hp : p ∈ rangePointers nbatch ranges) :
    (nbatch = 0 ∧ ∃ r ∈ ranges.getD [], p = some r) ∨ (nbatch ≠ 0 ∧ p = some .host) := by
  unfold rangePointers at hp
  by_cases hn : nbatch = 0
  · rw [if_pos hn] at hp
    obtain ⟨r, hr, rfl⟩ := List.mem_map.mp hp
    exact .inl ⟨hn, r, hr, rfl⟩
  · rw [if_neg hn, hbatch.resolve_left hn] at hp
    exact .inr ⟨hn, List.mem_singleton.mp hp⟩

/-! ### The class of the kernel -/

theorem chooseClass_cuda (cfg : Config) (g d : ℕ) (r f ch : Bool) :
    chooseClass cfg g d r f ch = chooseClass ⟨true, true, cfg.useCuda, 0, 0⟩ g d r f ch := rfl

/-- The classes for the CPU. -/
theorem chooseClass_cpu (cfg : Config) (r f ch : Bool) (d : ℕ) :
    chooseClass cfg 0 d r f ch = .ok (if r then "CpuReduc_ranges" else "CpuReduc") := by
  rw [chooseClass_cuda]
  generalize cfg.useCuda = u
  have h : chooseClass ⟨true, true, u, 0, 0⟩ 0 d r f ch = chooseClass ⟨true, true, u, 0, 0⟩ 0 0 r f ch := rfl
  rw [h]
  clear h
  revert u r f ch
  decide +kernel

/-- The classes for the 1D scheme. -/
theorem chooseClass_1D (cfg : Config) (hu : cfg.useCuda = true) (r f ch : Bool) :
    chooseClass cfg 1 0 r f ch = .ok ("GpuReduc1D" ++ (if r then "_ranges" else "") ++
      (if f then "_finalchunks" else if ch then "_chunks" else "")) := by
  rw [chooseClass_cuda, hu]
  revert r f ch
  decide +kernel

/-- The 2D scheme. -/
theorem chooseClass_2D (cfg : Config) (hu : cfg.useCuda = true) (r f ch : Bool) :
    chooseClass cfg 1 1 r f ch = if r then .error .key else .ok "GpuReduc2D" := by
  rw [chooseClass_cuda, hu]
  revert r f ch
  decide +kernel

/-- Without CUDA. -/
theorem chooseClass_noCuda (cfg : Config) (hu : cfg.useCuda = false) (d : ℕ) (r f ch : Bool) :
    chooseClass cfg 1 d r f ch = .error .keops := by
  rw [chooseClass_cuda, hu]
  rfl

theorem useCuda_of_ok {cfg : Config} {d : ℕ} {r f ch : Bool} {k : String}
    (h : chooseClass cfg 1 d r f ch = .ok k) : cfg.useCuda = true := by
  cases hu : cfg.useCuda with
  | true => rfl
  | false => rw [chooseClass_noCuda cfg hu] at h; exact absurd h (by simp)

theorem launch_exists {cfg : Config} {c : Call} {g d m : ℕ} {device : ℤ} {da : Loc} {k : String}
    (hk : chooseClass cfg g d (0 < c.nbatch || c.ranges.isSome) c.final c.chunks = .ok k)
    (hd : g ≠ 0 → 0 ≤ device ∧ device < cfg.nGpus) : ∃ L, launch cfg c g d m device da = .ok L := by
  dsimp only [launch]
  rw [hk]
  have hd' : ¬ (g ≠ 0 ∧ ¬ (0 ≤ device ∧ device < cfg.nGpus)) := fun h => h.2 (hd h.1)
  simp only [bind, Except.bind, if_neg hd', pure, Except.pure]
  exact ⟨_, rfl⟩

/-- Tensors that are all in the same place. -/
theorem findMem_same {cfg : Config} (ht : cfg.torchFound = true) {vars : List Arr} {l : Loc} (hne : vars ≠ [])
    (hv : ∀ a ∈ vars, a = .torch l) : findMem cfg vars = .ok (if l = .host then 0 else 1) := by
  obtain ⟨a, as, rfl⟩ := List.exists_cons_of_ne_nil hne
  have h1 : ¬ (a :: as).all Arr.isNumpy = true := fun h => by
    have := List.all_eq_true.mp h a List.mem_cons_self
    rw [hv a List.mem_cons_self] at this
    simp [Arr.isNumpy] at this
  have h2 : (a :: as).all Arr.isTorch = true := List.all_eq_true.mpr fun x hx => by rw [hv x hx]; rfl
  rw [findMem, if_neg h1, if_pos ht, if_pos h2]
  by_cases hl : l = .host
  · have h3 : ¬ (a :: as).all isOnDevice = true := fun h => by
      have := List.all_eq_true.mp h a List.mem_cons_self
      rw [hv a List.mem_cons_self] at this
      simp [isOnDevice, Arr.loc, hl] at this
    have h4 : (!(a :: as).any isOnDevice) = true := by
      rw [Bool.not_eq_true', List.any_eq_false]
      intro x hx
      rw [hv x hx]
      simp [isOnDevice, Arr.loc, hl]
    rw [if_neg h3, if_pos h4, if_pos hl]
  · have h3 : (a :: as).all isOnDevice = true := List.all_eq_true.mpr fun x hx => by
      rw [hv x hx]
      simp [isOnDevice, Arr.loc, hl]
    rw [if_pos h3, if_neg hl]

/-- The device of tensors that are all in the same place. -/
theorem setDevice_same {cfg : Config} {g m : ℕ} {l : Loc} {locs : List Loc} (hne : locs ≠ []) (hl : ∀ x ∈ locs, x = l) :
    setDevice cfg g m (-1) locs = .ok (match l with
      | .cuda (i + 1) => (i + 1 : ℕ)
      | _ => if g = 1 then cfg.defaultId else -1, l) := by
  obtain ⟨a, as, rfl⟩ := List.exists_cons_of_ne_nil hne
  obtain rfl := hl a List.mem_cons_self
  have h1 : ¬ ((g = 1 &&& m ∧ 1 &&& m = 1) ∧ as.any (fun l => l.index ≠ a.index) = true) := fun h => by
    obtain ⟨x, hx, hne⟩ := List.any_eq_true.mp h.2
    rw [hl x (List.mem_cons_of_mem _ hx)] at hne
    simp at hne
  simp only [setDevice, if_neg h1, if_true]
  rcases a with _ | _ | i <;> rfl

end Verif.Backend
