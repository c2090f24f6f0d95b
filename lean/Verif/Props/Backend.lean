import Verif.Proofs.Backend

/-!
# C57, C58: where a computation runs and which memory it uses
-/

namespace Verif.Backend

/-- The processor can use the memory of the host, and a GPU its own memory. -/
def Addressable : Who → Option Loc → Prop
  | .cpu, some .host => True
  | .gpu d, some (.cuda i) => d = i
  | _, _ => False

/-- Every array is used by a processor that can address it. -/
def Safe (L : Launch) : Prop := ∀ a ∈ L.accesses, Addressable a.1 a.2

/-- C57 for torch tensors.  When a call does not raise an exception, every array is used by a processor that can
address it, and the output is stored with the arguments.  Nothing is assumed on the places of the arguments relative
to each other.  The hypotheses say that the ranges and the output are stored with the first argument, that ranges are
not used with batch dimensions, and exclude the calls of `not_C57_cpu`, `not_C57_request` and `not_C57_memory`. -/
theorem C57_partial {cfg : Config} {c : Call} {first : Arr} {rest : List Arr} {L : Launch}
    (h : torchCall cfg c = .ok L) (hargs : c.args = first :: rest) (hdef : cfg.defaultId = 0)
    (hranges : ∀ r ∈ c.ranges.getD [], r = first.loc) (hout : ∀ o, c.out = some o → o = first.loc)
    (hbatch : c.nbatch = 0 ∨ c.ranges = none)
    (hcpu : first.loc ≠ .host → c.backend ≠ "CPU" ∧ (c.backend = "auto" → cfg.gpuAvailable = true))
    (hreq : first.loc = .cuda 0 → c.request = -1 ∨ c.request = 0)
    (hhost : c.backend = "GPU_1D_host" ∨ c.backend = "GPU_2D_host" → ∀ a ∈ c.args, a.loc = .host)
    (hdevice : c.backend = "GPU_1D_device" ∨ c.backend = "GPU_2D_device" → first.loc ≠ .host) :
    Safe L ∧ L.out = first.loc := by
  obtain ⟨g, d, m, device, da, ht, hs, hl⟩ := torchCall_ok h
  obtain ⟨-, hdev, -, ho, hacc⟩ := launch_ok hl
  rw [hargs, List.map_cons] at hs
  obtain ⟨rfl, hsame, hid⟩ := setDevice_ok hs
  have hL : L.out = first.loc := by
    rw [ho]
    cases hc : c.out with
    | none => rfl
    | some o => exact hout o hc
  refine ⟨?_, hL⟩
  -- every argument is on the host, or the kernel runs on the device of the arguments
  have key : (m = 0 ∧ (∀ a ∈ c.args, a.loc = .host) ∨ g = 1 ∧ m = 1 ∧ first.loc ≠ .host) ∧ (g = 0 ∨ g = 1) := by
    have hf : ∀ {m}, findMem cfg c.args = .ok m →
        (m = 0 ∧ (∀ a ∈ c.args, a.loc = .host)) ∨ (m = 1 ∧ first.loc ≠ .host) := fun hm =>
      (findMem_ok hm).imp_right fun h => ⟨h.1, h.2 first (by rw [hargs]; exact List.mem_cons_self)⟩
    generalize hb : c.backend = b at ht
    cases ht with
    | auto hm =>
      rcases hf hm with h1 | h1
      · exact ⟨.inl h1, by split <;> simp⟩
      · have := (hcpu h1.2).2 hb
        rw [if_pos this]
        exact ⟨.inr ⟨rfl, h1⟩, .inr rfl⟩
    | cpu hm =>
      rcases hf hm with h1 | h1
      · exact ⟨.inl h1, .inl rfl⟩
      · exact absurd hb (hcpu h1.2).1
    | gpu hm => exact ⟨(hf hm).imp_right fun h1 => ⟨rfl, h1⟩, .inr rfl⟩
    | gpu1 hm => exact ⟨(hf hm).imp_right fun h1 => ⟨rfl, h1⟩, .inr rfl⟩
    | gpu2 hm => exact ⟨(hf hm).imp_right fun h1 => ⟨rfl, h1⟩, .inr rfl⟩
    | gpu1d => exact ⟨.inr ⟨rfl, rfl, hdevice (.inl hb)⟩, .inr rfl⟩
    | gpu1h => exact ⟨.inl ⟨rfl, hhost (.inl hb)⟩, .inr rfl⟩
    | gpu2d => exact ⟨.inr ⟨rfl, rfl, hdevice (.inr hb)⟩, .inr rfl⟩
    | gpu2h => exact ⟨.inl ⟨rfl, hhost (.inr hb)⟩, .inr rfl⟩
  obtain ⟨hm, hg⟩ := key
  intro a ha
  rw [hacc, hL] at ha
  rcases hm with ⟨rfl, hall⟩ | ⟨rfl, rfl, hne⟩
  · have hfirst : first.loc = .host := hall first (by rw [hargs]; exact List.mem_cons_self)
    have ha' : a ∈ ((c.args.map Arr.loc ++ [first.loc]).map some ++ rangePointers c.nbatch c.ranges).map
        (Prod.mk Who.cpu) := by
      rcases hg with rfl | rfl <;> exact ha
    obtain ⟨p, hp, rfl⟩ := List.mem_map.mp ha'
    have : p = some .host := by
      rcases List.mem_append.mp hp with hp | hp
      · obtain ⟨l, hl, rfl⟩ := List.mem_map.mp hp
        rcases List.mem_append.mp hl with hl | hl
        · obtain ⟨x, hx, rfl⟩ := List.mem_map.mp hl
          rw [hall x hx]
        · rw [List.mem_singleton.mp hl, hfirst]
      · rcases mem_rangePointers hbatch hp with ⟨-, r, hr, rfl⟩ | ⟨-, rfl⟩
        · rw [hranges r hr, hfirst]
        · rfl
    subst this
    trivial
  · obtain ⟨i, hi⟩ : ∃ i, first.loc = .cuda i := by
      cases hfl : first.loc with
      | host => exact absurd hfl hne
      | cuda i => exact ⟨i, rfl⟩
    have hdi : device = i := hid rfl i hi hdef fun h0 => hreq (by rw [hi, h0])
    subst hdi
    have ha' : a ∈ ((c.args.map Arr.loc ++ [first.loc]).map some).map (Prod.mk (Who.gpu i)) ++
        (rangePointers c.nbatch c.ranges).map (Prod.mk (if c.nbatch = 0 then Who.gpu i else .cpu)) := ha
    rcases List.mem_append.mp ha' with hp | hp
    · obtain ⟨p, hp', rfl⟩ := List.mem_map.mp hp
      obtain ⟨l, hl, rfl⟩ := List.mem_map.mp hp'
      have : l = .cuda i := by
        rcases List.mem_append.mp hl with hl | hl
        · rw [hargs, List.map_cons] at hl
          rcases List.mem_cons.mp hl with rfl | hl
          · exact hi
          · rw [hsame rfl rfl l hl, hi]
        · rw [List.mem_singleton.mp hl, hi]
      subst this
      exact rfl
    · obtain ⟨p, hp', rfl⟩ := List.mem_map.mp hp
      rcases mem_rangePointers hbatch hp' with ⟨hn, r, hr, rfl⟩ | ⟨hn, rfl⟩
      · rw [if_pos hn, hranges r hr, hi]
        exact rfl
      · rw [if_neg hn]
        trivial

/-- C57: arguments that are not all in the same place are rejected, when the kernel runs on the GPU and the option does
not say where the arguments are. -/
theorem C57_places {cfg : Config} {c : Call} {first : Arr} {rest : List Arr} {L : Launch}
    (h : torchCall cfg c = .ok L) (hargs : c.args = first :: rest)
    (hb : c.backend ∈ ["auto", "GPU", "GPU_1D", "GPU_2D"]) (hauto : c.backend = "auto" → cfg.gpuAvailable = true) :
    ∀ a ∈ c.args, a.loc = first.loc := by
  obtain ⟨g, d, m, device, da, ht, hs, hl⟩ := torchCall_ok h
  rw [hargs, List.map_cons] at hs
  obtain ⟨rfl, hsame, -⟩ := setDevice_ok hs
  have key : findMem cfg c.args = .ok m ∧ g = 1 := by
    generalize hbe : c.backend = b at ht hb hauto
    cases ht with
    | auto hm => exact ⟨hm, by rw [if_pos (hauto rfl)]⟩
    | cpu hm => exact absurd hb (by decide +kernel)
    | gpu hm => exact ⟨hm, rfl⟩
    | gpu1 hm => exact ⟨hm, rfl⟩
    | gpu2 hm => exact ⟨hm, rfl⟩
    | gpu1d => exact absurd hb (by decide +kernel)
    | gpu1h => exact absurd hb (by decide +kernel)
    | gpu2d => exact absurd hb (by decide +kernel)
    | gpu2h => exact absurd hb (by decide +kernel)
  intro a ha
  rcases findMem_ok key.1 with ⟨-, hall⟩ | ⟨rfl, -⟩
  · rw [hall a ha, hall first (by rw [hargs]; exact List.mem_cons_self)]
  · rw [hargs] at ha
    rcases List.mem_cons.mp ha with rfl | ha
    · rfl
    · exact hsame key.2 rfl _ (List.mem_map_of_mem ha)

/-- C57 for NumPy arrays: with the options which do not say that the arrays are on the GPU, every array is used by a
processor that can address it, and the output is on the host. -/
theorem C57_numpy {cfg : Config} {c : Call} {L : Launch} (h : numpyCall cfg c = .ok L)
    (hargs : ∀ a ∈ c.args, a = .numpy) (hranges : ∀ r ∈ c.ranges.getD [], r = .host)
    (hout : ∀ o, c.out = some o → o = .host) (hbatch : c.nbatch = 0 ∨ c.ranges = none)
    (hdevice : c.backend ≠ "GPU_1D_device" ∧ c.backend ≠ "GPU_2D_device") : Safe L ∧ L.out = .host := by
  obtain ⟨g, d, m, device, ht, hl⟩ := numpyCall_ok h
  obtain ⟨-, -, -, ho, hacc⟩ := launch_ok hl
  have hL : L.out = .host := by
    rw [ho]
    cases hc : c.out with
    | none => rfl
    | some o => exact hout o hc
  refine ⟨?_, hL⟩
  have hf : ∀ {m}, findMem cfg c.args = .ok m → m = 0 := fun {m} hm => by
    have hn : c.args.all Arr.isNumpy = true := List.all_eq_true.mpr fun a ha => by rw [hargs a ha]; rfl
    rw [findMem, if_pos hn] at hm
    injection hm with hm
    exact hm.symm
  have key : m = 0 := by
    generalize hb : c.backend = b at ht hdevice
    cases ht with
    | auto hm => exact hf hm
    | cpu hm => exact hf hm
    | gpu hm => exact hf hm
    | gpu1 hm => exact hf hm
    | gpu2 hm => exact hf hm
    | gpu1d => exact absurd rfl hdevice.1
    | gpu1h => rfl
    | gpu2d => exact absurd rfl hdevice.2
    | gpu2h => rfl
  subst key
  intro a ha
  have ha' : a ∈ ((c.args.map Arr.loc ++ [L.out]).map some ++ rangePointers c.nbatch c.ranges).map
      (Prod.mk Who.cpu) := by
    rw [hacc] at ha
    unfold accesses at ha
    by_cases hg : g = 0
    · simpa only [if_pos hg] using ha
    · rw [if_neg hg] at ha
      exact ha
  obtain ⟨p, hp, rfl⟩ := List.mem_map.mp ha'
  have : p = some .host := by
    rcases List.mem_append.mp hp with hp | hp
    · obtain ⟨l, hl, rfl⟩ := List.mem_map.mp hp
      rcases List.mem_append.mp hl with hl | hl
      · obtain ⟨x, hx, rfl⟩ := List.mem_map.mp hl
        rw [hargs x hx]; rfl
      · rw [List.mem_singleton.mp hl, hL]
    · rcases mem_rangePointers hbatch hp with ⟨-, r, hr, rfl⟩ | ⟨-, rfl⟩
      · rw [hranges r hr]
      · rfl
  subst this
  trivial

/-! ### Calls that are accepted although the kernel cannot address the arrays -/

/-- A machine with two GPUs. -/
def twoGpus : Config := ⟨true, true, true, 2, 0⟩

/-- A refutation of C57: tensors on the GPU with the backend `"CPU"`.  The call is accepted, and the processor reads
the pointers of the device. -/
theorem not_C57_cpu : ∃ L, torchCall twoGpus { backend := "CPU", args := [.torch (.cuda 0), .torch (.cuda 0)] } = .ok L ∧
    ¬ Safe L := by
  refine ⟨⟨"CpuReduc", .cpu, .cuda 0, [(.cpu, some (.cuda 0)), (.cpu, some (.cuda 0)), (.cpu, some (.cuda 0))]⟩,
    by decide +kernel, fun h => ?_⟩
  exact h (.cpu, some (.cuda 0)) List.mem_cons_self

/-- A refutation of C57: tensors on the first GPU and `device_id=1`.  The mismatch is not detected, because the index 0
is false in Python; the same call with tensors on the second GPU and `device_id=0` is rejected. -/
theorem not_C57_request :
    (∃ L, torchCall twoGpus { backend := "GPU", args := [.torch (.cuda 0)], request := 1 } = .ok L ∧ ¬ Safe L) ∧
    torchCall twoGpus { backend := "GPU", args := [.torch (.cuda 1)], request := 0 } = .error .value := by
  refine ⟨⟨⟨"GpuReduc1D", .gpu 1, .cuda 0, [(.gpu 1, some (.cuda 0)), (.gpu 1, some (.cuda 0))]⟩,
    by decide +kernel, fun h => ?_⟩, by decide +kernel⟩
  have := h (.gpu 1, some (.cuda 0)) List.mem_cons_self
  simp [Addressable] at this

/-- A refutation of C57: tensors on the GPU with ranges on the host. -/
theorem not_C57_ranges : ∃ L, torchCall twoGpus
    { backend := "auto", args := [.torch (.cuda 0)], ranges := some (List.replicate 6 .host) } = .ok L ∧ ¬ Safe L := by
  refine ⟨⟨"GpuReduc1D_ranges", .gpu 0, .cuda 0, [(.gpu 0, some (.cuda 0)), (.gpu 0, some (.cuda 0))] ++
    List.replicate 6 (.gpu 0, some .host)⟩, by decide +kernel, fun h => ?_⟩
  exact h (.gpu 0, some .host) (by decide)

/-- A refutation of C57: ranges with batch dimensions are accepted, and the pointers to the ranges are never set. -/
theorem not_C57_batch : ∃ L, torchCall twoGpus
    { backend := "auto", args := [.torch .host], ranges := some (List.replicate 6 .host), nbatch := 1 } = .ok L ∧
    ¬ Safe L := by
  refine ⟨⟨"GpuReduc1D_ranges", .gpu 0, .host, [(.cpu, some .host), (.cpu, some .host), (.cpu, none)]⟩,
    by decide +kernel, fun h => ?_⟩
  exact h (.cpu, none) (by decide)

/-- A refutation of C57: the options which say where the arguments are, are not compared with the arguments. -/
theorem not_C57_memory :
    (∃ L, torchCall twoGpus { backend := "GPU_1D_device", args := [.torch .host] } = .ok L ∧ ¬ Safe L) ∧
    (∃ L, torchCall twoGpus { backend := "GPU_1D_host", args := [.torch .host, .torch (.cuda 0)] } = .ok L ∧ ¬ Safe L) ∧
    ∃ L, numpyCall twoGpus { backend := "GPU_1D_device", args := [.numpy] } = .ok L ∧ ¬ Safe L := by
  refine ⟨⟨⟨"GpuReduc1D", .gpu 0, .host, [(.gpu 0, some .host), (.gpu 0, some .host)]⟩, by decide +kernel,
      fun h => h (.gpu 0, some .host) List.mem_cons_self⟩,
    ⟨⟨"GpuReduc1D", .gpu 0, .host, [(.cpu, some .host), (.cpu, some (.cuda 0)), (.cpu, some .host)]⟩,
      by decide +kernel, fun h => h (.cpu, some (.cuda 0)) (by decide)⟩,
    ⟨⟨"GpuReduc1D", .gpu 0, .host, [(.gpu 0, some .host), (.gpu 0, some .host)]⟩, by decide +kernel,
      fun h => h (.gpu 0, some .host) List.mem_cons_self⟩⟩

/-- Tensors on the second GPU, with ranges. -/
def exCall : Call :=
  { backend := "auto", args := [.torch (.cuda 1), .torch (.cuda 1)], ranges := some (List.replicate 6 (.cuda 1)) }

/-- `C57_partial` and `C57_places` apply to tensors on the second GPU with ranges. -/
example : ∃ L, torchCall twoGpus exCall = .ok L ∧ Safe L ∧ ∀ a ∈ exCall.args, a.loc = .cuda 1 := by
  have h : torchCall twoGpus exCall =
      .ok ⟨"GpuReduc1D_ranges", .gpu 1, .cuda 1, List.replicate 9 (.gpu 1, some (.cuda 1))⟩ := by decide +kernel
  exact ⟨_, h, (C57_partial h rfl rfl (by decide) (fun o ho => by simp [exCall] at ho) (.inl rfl)
    (fun _ => ⟨by decide +kernel, fun _ => rfl⟩) (by decide) (by decide +kernel) (by decide)).1,
    C57_places h rfl (by decide +kernel) (fun _ => rfl)⟩

/-- `C57_numpy` applies to arrays with one batch dimension. -/
example : ∃ L, numpyCall twoGpus { backend := "auto", args := [.numpy, .numpy], nbatch := 1 } = .ok L ∧ Safe L := by
  refine ⟨⟨"GpuReduc1D_ranges", .gpu 0, .host, List.replicate 4 (.cpu, some .host)⟩, by decide +kernel, ?_⟩
  exact (C57_numpy (cfg := twoGpus) (c := { backend := "auto", args := [.numpy, .numpy], nbatch := 1 })
    (by decide +kernel) (by decide) (by decide) (by simp) (.inr rfl) (by decide +kernel)).1

/-! ### C58: the backend that was asked for -/

/-- C58: when a call does not raise an exception, the kernel is the one named by the option: it runs on the CPU for
`"CPU"`, on a GPU which exists for the options beginning with `"GPU"`, with the 1D scheme or the 2D scheme, and
`"auto"` runs on the GPU exactly when one is available.  The kernel handles ranges exactly when there are ranges or
batch dimensions. -/
theorem C58_names {cfg : Config} {c : Call} {L : Launch} (h : torchCall cfg c = .ok L) :
    (c.backend = "CPU" → L.runs = .cpu) ∧
    (c.backend = "auto" → (L.runs = .cpu ↔ cfg.gpuAvailable = false)) ∧
    (c.backend ≠ "CPU" → c.backend ≠ "auto" → ∃ d : ℕ, L.runs = .gpu d ∧ d < cfg.nGpus) ∧
    (L.runs = .cpu → L.kernel = if 0 < c.nbatch ∨ c.ranges ≠ none then "CpuReduc_ranges" else "CpuReduc") ∧
    (L.runs ≠ .cpu → c.backend ∈ ["auto", "GPU", "GPU_1D", "GPU_1D_device", "GPU_1D_host"] →
      L.kernel ∈ if 0 < c.nbatch ∨ c.ranges ≠ none then
        ["GpuReduc1D_ranges", "GpuReduc1D_ranges_chunks", "GpuReduc1D_ranges_finalchunks"]
      else ["GpuReduc1D", "GpuReduc1D_chunks", "GpuReduc1D_finalchunks"]) ∧
    (c.backend ∈ ["GPU_2D", "GPU_2D_device", "GPU_2D_host"] → L.kernel = "GpuReduc2D") := by
  obtain ⟨g, d, m, device, da, ht, -, hl⟩ := torchCall_ok h
  obtain ⟨⟨k, hk, rfl⟩, hdev, hruns, -, -⟩ := launch_ok hl
  have hr : (0 < c.nbatch ∨ c.ranges ≠ none) = ((0 < c.nbatch || c.ranges.isSome) = true) := by
    cases c.ranges <;> simp
  simp only [hr]
  generalize (0 < c.nbatch || c.ranges.isSome) = r at hk
  generalize c.final = f at hk
  generalize c.chunks = ch at hk
  generalize L.kernel = k at hk
  -- the three kinds of kernels
  have hcpu : g = 0 → k = if r = true then "CpuReduc_ranges" else "CpuReduc" := by
    rintro rfl
    rw [chooseClass_cpu] at hk
    injection hk with hk
    exact hk.symm
  have h1D : g = 1 → d = 0 → k ∈ if r = true then
        ["GpuReduc1D_ranges", "GpuReduc1D_ranges_chunks", "GpuReduc1D_ranges_finalchunks"]
      else ["GpuReduc1D", "GpuReduc1D_chunks", "GpuReduc1D_finalchunks"] := by
    rintro rfl rfl
    rw [chooseClass_1D cfg (useCuda_of_ok hk)] at hk
    injection hk with hk
    subst hk
    clear hl hdev hruns ht
    revert r f ch
    decide +kernel
  have h2D : g = 1 → d = 1 → k = "GpuReduc2D" := by
    rintro rfl rfl
    rw [chooseClass_2D cfg (useCuda_of_ok hk)] at hk
    cases r
    · injection hk with hk
      exact hk.symm
    · exact absurd hk (by simp)
  have hgpu : g = 1 → (∃ d : ℕ, L.runs = .gpu d ∧ d < cfg.nGpus) ∧ L.runs ≠ .cpu := by
    rintro rfl
    obtain ⟨h1, h2⟩ := hdev (by decide)
    obtain ⟨n, rfl⟩ := Int.eq_ofNat_of_zero_le h1
    exact ⟨⟨n, hruns, by simpa using h2⟩, by rw [hruns]; simp⟩
  have hrun0 : g = 0 → L.runs = .cpu := by rintro rfl; exact hruns
  have hg01 : L.runs = .cpu → g = 0 := by
    intro h
    by_contra hg
    rw [hruns, if_neg hg] at h
    exact absurd h (by simp)
  have hcpu' : L.runs = .cpu → k = if r = true then "CpuReduc_ranges" else "CpuReduc" := fun h => hcpu (hg01 h)
  generalize c.backend = b at ht
  cases ht with
  | auto hm =>
    refine ⟨fun h => absurd h (by decide +kernel), fun _ => ?_, fun _ h => absurd rfl h, hcpu', fun h1 _ => ?_, fun h1 => ?_⟩
    · cases hga : cfg.gpuAvailable
      · exact ⟨fun _ => rfl, fun _ => hrun0 (by simp [hga])⟩
      · exact ⟨fun h => absurd h (hgpu (by simp [hga])).2, fun h => absurd h (by simp)⟩
    · refine h1D ?_ rfl
      by_contra hg
      refine h1 (hrun0 ?_)
      cases hga : cfg.gpuAvailable
      · simp
      · exact absurd (by simp [hga]) hg
    · exact absurd h1 (by decide +kernel)
  | cpu hm =>
    exact ⟨fun _ => hrun0 rfl, fun h => absurd h (by decide +kernel), fun h => absurd rfl h, hcpu',
      fun h => absurd (hrun0 rfl) h, fun h => absurd h (by decide +kernel)⟩
  | gpu hm =>
    exact ⟨fun h => absurd h (by decide +kernel), fun h => absurd h (by decide +kernel), fun _ _ => (hgpu rfl).1,
      hcpu', fun _ _ => h1D rfl rfl, fun h => absurd h (by decide +kernel)⟩
  | gpu1 hm =>
    exact ⟨fun h => absurd h (by decide +kernel), fun h => absurd h (by decide +kernel), fun _ _ => (hgpu rfl).1,
      hcpu', fun _ _ => h1D rfl rfl, fun h => absurd h (by decide +kernel)⟩
  | gpu1d =>
    exact ⟨fun h => absurd h (by decide +kernel), fun h => absurd h (by decide +kernel), fun _ _ => (hgpu rfl).1,
      hcpu', fun _ _ => h1D rfl rfl, fun h => absurd h (by decide +kernel)⟩
  | gpu1h =>
    exact ⟨fun h => absurd h (by decide +kernel), fun h => absurd h (by decide +kernel), fun _ _ => (hgpu rfl).1,
      hcpu', fun _ _ => h1D rfl rfl, fun h => absurd h (by decide +kernel)⟩
  | gpu2 hm =>
    exact ⟨fun h => absurd h (by decide +kernel), fun h => absurd h (by decide +kernel), fun _ _ => (hgpu rfl).1,
      hcpu', fun _ h => absurd h (by decide +kernel), fun _ => h2D rfl rfl⟩
  | gpu2d =>
    exact ⟨fun h => absurd h (by decide +kernel), fun h => absurd h (by decide +kernel), fun _ _ => (hgpu rfl).1,
      hcpu', fun _ h => absurd h (by decide +kernel), fun _ => h2D rfl rfl⟩
  | gpu2h =>
    exact ⟨fun h => absurd h (by decide +kernel), fun h => absurd h (by decide +kernel), fun _ _ => (hgpu rfl).1,
      hcpu', fun _ h => absurd h (by decide +kernel), fun _ => h2D rfl rfl⟩

/-- C58: other names are rejected. -/
theorem C58_unknown (cfg : Config) (c : Call)
    (hb : c.backend ∉ ["auto", "CPU", "GPU", "GPU_1D", "GPU_1D_device", "GPU_1D_host", "GPU_2D", "GPU_2D_device",
      "GPU_2D_host"]) : torchCall cfg c = .error .value ∧ numpyCall cfg c = .error .value := by
  have h : defineTag cfg c.backend c.args = .error .value := by
    have hb' : c.backend ∉ options := hb
    rw [defineTag, if_pos hb']
  exact ⟨by simp [torchCall, h, bind, Except.bind], by simp [numpyCall, h, bind, Except.bind]⟩

/-- C58: the nine options are accepted for tensors that are all in the same place, on a machine with the GPUs that the
option needs.  Ranges and batch dimensions are excluded for the 2D scheme: see `not_C58`. -/
theorem C58_partial {cfg : Config} {c : Call} {l : Loc}
    (hb : c.backend ∈ ["auto", "CPU", "GPU", "GPU_1D", "GPU_1D_device", "GPU_1D_host", "GPU_2D", "GPU_2D_device",
      "GPU_2D_host"])
    (hne : c.args ≠ []) (hargs : ∀ a ∈ c.args, a = .torch l) (htorch : cfg.torchFound = true)
    (hgpu : c.backend ≠ "CPU" → (c.backend = "auto" → cfg.gpuAvailable = true) →
      cfg.useCuda = true ∧ 0 < cfg.nGpus ∧ cfg.defaultId = 0)
    (hl : ∀ i, l = .cuda i → i < cfg.nGpus) (hreq : c.request = -1)
    (h2D : c.backend ∈ ["GPU_2D", "GPU_2D_device", "GPU_2D_host"] → c.nbatch = 0 ∧ c.ranges = none) :
    ∃ L, torchCall cfg c = .ok L := by
  -- the tags
  obtain ⟨g, d, m, ht, hg, hcuda, hd, h2⟩ : ∃ g d m, defineTag cfg c.backend c.args = .ok (g, d, m) ∧
      (g = 0 ∨ g = 1) ∧ (g = 1 → cfg.useCuda = true ∧ 0 < cfg.nGpus ∧ cfg.defaultId = 0) ∧ (d = 0 ∨ d = 1) ∧
      (d = 1 → c.nbatch = 0 ∧ c.ranges = none) := by
    have hm := findMem_same htorch hne hargs
    simp only [List.mem_cons, List.not_mem_nil, or_false] at hb
    rcases hb with hb | hb | hb | hb | hb | hb | hb | hb | hb <;> rw [hb] at hgpu h2D ⊢
    · rw [defineTag_auto, hm]
      refine ⟨_, _, _, rfl, ?_, fun hg => hgpu (by decide +kernel) fun _ => ?_, .inl rfl, by simp⟩
      · split <;> simp
      · cases hga : cfg.gpuAvailable
        · simp [hga] at hg
        · rfl
    · rw [defineTag_cpu, hm]
      exact ⟨_, _, _, rfl, .inl rfl, by simp, .inl rfl, by simp⟩
    · rw [defineTag_gpu, hm]
      exact ⟨_, _, _, rfl, .inr rfl, fun _ => hgpu (by decide +kernel) fun h => absurd h (by decide +kernel), .inl rfl, by simp⟩
    · rw [defineTag_gpu1, hm]
      exact ⟨_, _, _, rfl, .inr rfl, fun _ => hgpu (by decide +kernel) fun h => absurd h (by decide +kernel), .inl rfl, by simp⟩
    · rw [defineTag_gpu1d]
      exact ⟨_, _, _, rfl, .inr rfl, fun _ => hgpu (by decide +kernel) fun h => absurd h (by decide +kernel), .inl rfl, by simp⟩
    · rw [defineTag_gpu1h]
      exact ⟨_, _, _, rfl, .inr rfl, fun _ => hgpu (by decide +kernel) fun h => absurd h (by decide +kernel), .inl rfl, by simp⟩
    · rw [defineTag_gpu2, hm]
      exact ⟨_, _, _, rfl, .inr rfl, fun _ => hgpu (by decide +kernel) fun h => absurd h (by decide +kernel), .inr rfl,
        fun _ => h2D (by decide +kernel)⟩
    · rw [defineTag_gpu2d]
      exact ⟨_, _, _, rfl, .inr rfl, fun _ => hgpu (by decide +kernel) fun h => absurd h (by decide +kernel), .inr rfl,
        fun _ => h2D (by decide +kernel)⟩
    · rw [defineTag_gpu2h]
      exact ⟨_, _, _, rfl, .inr rfl, fun _ => hgpu (by decide +kernel) fun h => absurd h (by decide +kernel), .inr rfl,
        fun _ => h2D (by decide +kernel)⟩
  have hs := setDevice_same (cfg := cfg) (g := g) (m := m) (l := l) (locs := c.args.map Arr.loc)
    (by simpa using hne) (fun x hx => by
      obtain ⟨a, ha, rfl⟩ := List.mem_map.mp hx
      rw [hargs a ha]; rfl)
  unfold torchCall
  rw [ht, hreq]
  simp only [bind, Except.bind]
  rw [hs]
  have hk : ∃ k, chooseClass cfg g d (0 < c.nbatch || c.ranges.isSome) c.final c.chunks = .ok k := by
    rcases hg with rfl | rfl
    · exact ⟨_, chooseClass_cpu ..⟩
    · rcases hd with rfl | rfl
      · exact ⟨_, chooseClass_1D cfg (hcuda rfl).1 ..⟩
      · obtain ⟨h1, h3⟩ := h2 rfl
        rw [chooseClass_2D cfg (hcuda rfl).1, h1, h3]
        exact ⟨_, rfl⟩
  obtain ⟨k, hk⟩ := hk
  refine launch_exists hk fun hg0 => ?_
  have hg1 : g = 1 := hg.resolve_left hg0
  obtain ⟨-, hn, hdef⟩ := hcuda hg1
  rcases l with _ | _ | i
  · simp only [hg1, if_true, hdef]; omega
  · simp only [hg1, if_true, hdef]; omega
  · have := hl (i + 1) rfl
    simp only
    omega

/-- A refutation of C58: with the options for the 2D scheme, no call with ranges or batch dimensions is accepted: there
is no such kernel, and the name of its class is looked up in a dictionary. -/
theorem not_C58 :
    (∀ (cfg : Config) (c : Call), c.backend ∈ ["GPU_2D", "GPU_2D_device", "GPU_2D_host"] →
      0 < c.nbatch ∨ c.ranges ≠ none → ∀ L, torchCall cfg c ≠ .ok L) ∧
    torchCall twoGpus { backend := "GPU_2D", args := [.torch (.cuda 0)], nbatch := 1 } = .error .key := by
  refine ⟨fun cfg c hb hr L h => ?_, by decide +kernel⟩
  obtain ⟨g, d, m, device, da, ht, -, hl⟩ := torchCall_ok h
  obtain ⟨⟨k, hk, -⟩, -⟩ := launch_ok hl
  have hgd : g = 1 ∧ d = 1 := by
    generalize c.backend = b at ht hb
    cases ht with
    | gpu2 _ => exact ⟨rfl, rfl⟩
    | gpu2d => exact ⟨rfl, rfl⟩
    | gpu2h => exact ⟨rfl, rfl⟩
    | _ => exact absurd hb (by decide +kernel)
  obtain ⟨rfl, rfl⟩ := hgd
  have hr' : (0 < c.nbatch || c.ranges.isSome) = true := by
    rcases hr with hr | hr
    · simp [hr]
    · cases hc : c.ranges
      · exact absurd hc hr
      · simp
  rw [hr', chooseClass_2D cfg (useCuda_of_ok hk)] at hk
  exact absurd hk (by simp)

/-- `C58_partial` and `C58_names` apply to tensors on the second GPU with the 2D scheme. -/
example : ∃ L, torchCall twoGpus { backend := "GPU_2D", args := [.torch (.cuda 1), .torch (.cuda 1)] } = .ok L ∧
    L.kernel = "GpuReduc2D" := by
  obtain ⟨L, hL⟩ := C58_partial (cfg := twoGpus) (l := .cuda 1)
    (c := { backend := "GPU_2D", args := [.torch (.cuda 1), .torch (.cuda 1)] })
    (by decide +kernel) (by decide) (by decide) rfl (fun _ _ => by decide)
    (fun i hi => by obtain rfl : 1 = i := by simpa using hi
                    decide) rfl (fun _ => ⟨rfl, rfl⟩)
  exact ⟨L, hL, (C58_names hL).2.2.2.2.2 (by decide +kernel)⟩

end Verif.Backend
