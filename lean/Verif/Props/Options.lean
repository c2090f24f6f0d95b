import Verif.Model.Options
import Verif.Spec.Options
import Verif.Proofs.Cluster
import Verif.Props.Postprocess

/-!
# Options of a reduction: C43, C47
-/

namespace Verif

open Spec (sumReduction bits allowed returnsIndices requested formula2Ok redRows outRows)

/-! ## C43 -/

theorem sumType_iff {op : String} {f2 : Option String} {p : String × Option String}
    (h : preprocessName op f2 = some p) : sumType p.1 ↔ sumReduction op := by
  unfold preprocessName at h
  unfold sumType sumReduction
  split_ifs at h with h1 h2 h3 h4 h5
  · cases f2 with
    | none => simp at h
    | some f =>
      simp only [Option.map_some, Option.some.injEq] at h
      subst h
      rcases h1 with rfl | rfl <;> simp
  · simp only [Option.some.injEq] at h; subst h; subst h2; simp
  · simp only [Option.some.injEq] at h; subst h; subst h2; simp
  · simp only [Option.some.injEq] at h; subst h; subst h4; simp
  · simp only [Option.some.injEq] at h
    subst h
    simp only [List.mem_cons, List.not_mem_nil, or_false]
    tauto

theorem getOptionalFlags_iff (op dtypeAcc : String) (dbl : Bool) (scheme : String)
    (chunks fast : Bool) (f : Flags) :
    getOptionalFlags op dtypeAcc dbl scheme chunks fast = some f ↔
      ¬ (dtypeAcc ≠ "auto" ∧ dbl = true) ∧
      (sumType op ∨ (dtypeAcc = "auto" ∧ dbl = false)) ∧
      (scheme = "auto" ∨ scheme = "direct_sum" ∨
        (sumType op ∧ (scheme = "block_sum" ∨ scheme = "kahan_scheme"))) ∧
      f = ⟨if dbl = true then "float64" else dtypeAcc,
        if scheme = "auto" then (if sumType op then "block_sum" else "direct_sum") else scheme,
        if fast then 1 else 0, if chunks then 1 else 0⟩ := by
  unfold getOptionalFlags
  by_cases hs : sumType op <;> by_cases ha : scheme = "auto" <;> cases dbl <;>
    by_cases hd : dtypeAcc = "auto" <;> simp [hs, ha, hd, eq_comm]
  all_goals
    by_cases h1 : scheme = "block_sum"
    · simp [h1]
    · by_cases h2 : scheme = "kahan_scheme"
      · simp [h2]
      · by_cases h3 : scheme = "direct_sum"
        · simp [h3]
        · simp [h1, h2, h3]

theorem parseDtypeAcc_iff {dtype : String} (hd : dtype ∈ ["float16", "float32", "float64"])
    (acc r : String) :
    parseDtypeAcc acc dtype = some r ↔
      (acc = "auto" ∨ allowed dtype acc) ∧
      (if acc = "auto" then dtype else acc, dtype, r) ∈
        [("float16", "float16", "half2"), ("float32", "float16", "float2"),
          ("float32", "float32", "float"), ("float64", "float32", "double"),
          ("float64", "float64", "double")] := by
  have hsub : ∀ a : String, a ≠ "float64" → a ≠ "float16" → a ≠ "float32" →
      parseDtypeAcc a "float64" = none ∨ a = "auto" := by
    intro a h1 h2 h3
    by_cases h : a = "auto"
    · exact Or.inr h
    · left
      unfold parseDtypeAcc
      simp [h, h1, h2, h3]
  have h16 : ¬ isSubstring "float16" "float64" := by decide +kernel
  have h32 : ¬ isSubstring "float32" "float64" := by decide +kernel
  have h64 : isSubstring "float64" "float64" := by decide +kernel
  simp only [List.mem_cons, List.not_mem_nil, or_false] at hd
  by_cases ha : acc = "auto"
  · subst ha
    rcases hd with rfl | rfl | rfl <;> simp [parseDtypeAcc, h64, eq_comm]
  by_cases a1 : acc = "float16"
  · subst a1
    rcases hd with rfl | rfl | rfl <;> simp [parseDtypeAcc, h16, allowed, eq_comm]
  by_cases a2 : acc = "float32"
  · subst a2
    rcases hd with rfl | rfl | rfl <;> simp [parseDtypeAcc, h32, allowed, eq_comm]
  by_cases a3 : acc = "float64"
  · subst a3
    rcases hd with rfl | rfl | rfl <;> simp [parseDtypeAcc, h64, allowed, eq_comm]
  have hn : parseDtypeAcc acc dtype = none := by
    rcases hd with rfl | rfl | rfl
    · simp [parseDtypeAcc, ha, a1, a2]
    · simp [parseDtypeAcc, ha, a2, a3]
    · exact (hsub acc a3 a1 a2).resolve_right ha
  simp [hn, ha, a1, a2, a3, allowed]

theorem preprocessName_isSome (op : String) (f2 : Option String) :
    (∃ p, preprocessName op f2 = some p) ↔ formula2Ok op f2 := by
  unfold preprocessName formula2Ok truthy
  split_ifs with h1 h2 h3 h4 h5
  · have : op ≠ "LogSumExpWeight" := by rcases h1 with rfl | rfl <;> decide
    cases f2 <;> simp [h1, this]
  · subst h2; simp
  · subst h2; simp
  · subst h4; cases f2 <;> simp_all
  · subst h4
    cases f2 with
    | none => simp at h5
    | some s => simp at h5 ⊢; exact h5
  · simp [h1, h4]

/-- C43: a combination of options is accepted exactly if: at most one of `dtype_acc` and
`use_double_acc` is given; if an accumulation type is requested, the reduction is a sum and the type
is documented for the type of the data; a sum scheme is a known one, and `block_sum` and
`kahan_scheme` are only requested for sums; the second formula is given when it is needed. Every
other combination raises an exception. -/
theorem C43_accepts (op : String) (formula2 : Option String) (dtype dtypeAcc : String)
    (dbl : Bool) (scheme : String) (chunks fast : Bool)
    (hd : dtype ∈ ["float16", "float32", "float64"]) :
    (accuracy op formula2 dtype dtypeAcc dbl scheme chunks fast ≠ none) ↔
      formula2Ok op formula2 ∧ ¬ (dtypeAcc ≠ "auto" ∧ dbl = true) ∧
      (requested dtypeAcc dbl = "auto" ∨
        (sumReduction op ∧ allowed dtype (requested dtypeAcc dbl))) ∧
      (scheme = "auto" ∨ scheme = "direct_sum" ∨
        (sumReduction op ∧ (scheme = "block_sum" ∨ scheme = "kahan_scheme"))) := by
  rw [← preprocessName_isSome]
  unfold accuracy
  cases hp : preprocessName op formula2 with
  | none => simp
  | some p =>
    have hst := sumType_iff hp
    simp only [Option.bind_eq_bind, Option.bind_some, Option.some.injEq, exists_eq', true_and]
    have hc : ∃ c, cDtype dtype = some c := by
      simp only [List.mem_cons, List.not_mem_nil, or_false] at hd
      rcases hd with rfl | rfl | rfl <;> exact ⟨_, rfl⟩
    obtain ⟨c, hc⟩ := hc
    rw [hc]
    constructor
    · intro h
      cases hf : getOptionalFlags p.1 dtypeAcc dbl scheme chunks fast with
      | none => simp [hf] at h
      | some f =>
        cases hr : parseDtypeAcc f.dtypeAcc dtype with
        | none => simp [hf, hr] at h
        | some r =>
          obtain ⟨h1, h2, h3, rfl⟩ := (getOptionalFlags_iff ..).1 hf
          obtain ⟨h4, -⟩ := (parseDtypeAcc_iff hd _ _).1 hr
          rw [hst] at h2 h3
          refine ⟨h1, ?_, h3⟩
          rcases h2 with h2 | ⟨h2, h2'⟩
          · rcases h4 with h4 | h4
            · exact Or.inl h4
            · exact Or.inr ⟨h2, h4⟩
          · left; simp [requested, h2, h2']
    · rintro ⟨h1, h2, h3⟩
      have hreq : sumType p.1 ∨ (dtypeAcc = "auto" ∧ dbl = false) := by
        rcases h2 with h2 | ⟨h2, -⟩
        · right
          cases dbl <;> simp [requested] at h2 ⊢
          exact h2
        · exact Or.inl (hst.2 h2)
      rw [(getOptionalFlags_iff _ _ _ _ _ _ _).2 ⟨h1, hreq, by rw [hst]; exact h3, rfl⟩]
      have h4 : requested dtypeAcc dbl = "auto" ∨ allowed dtype (requested dtypeAcc dbl) :=
        h2.imp_right (·.2)
      have : ∃ r, parseDtypeAcc (requested dtypeAcc dbl) dtype = some r := by
        have hal := h4
        simp only [List.mem_cons, List.not_mem_nil, or_false] at hd
        rcases h4 with h4 | h4
        · rw [h4, ← Option.isSome_iff_exists]; rcases hd with rfl | rfl | rfl <;> decide +kernel
        · unfold allowed at h4
          rcases h4 with ⟨h4, rfl⟩ | ⟨h4, rfl | rfl⟩ | ⟨h4, rfl | rfl⟩ <;>
            rw [h4, ← Option.isSome_iff_exists] <;> decide +kernel
      obtain ⟨r, hr⟩ := this
      unfold requested at hr
      simp [hr]

/-- C43: the types and the scheme of an accepted call. The accumulator has the type that was
requested, by default the type of the data; it has at least the precision of the data, and a larger
one only for sums; the scheme is the requested one; schemes other than the direct one are only used
for sums. -/
theorem C43_result (op : String) (formula2 : Option String) (dtype dtypeAcc : String)
    (dbl : Bool) (scheme : String) (chunks fast : Bool)
    (hd : dtype ∈ ["float16", "float32", "float64"]) (a : Accuracy)
    (h : accuracy op formula2 dtype dtypeAcc dbl scheme chunks fast = some a) :
    bits a.dtype = bits dtype ∧
    bits a.dtypeAcc =
      bits (if requested dtypeAcc dbl = "auto" then dtype else requested dtypeAcc dbl) ∧
    bits dtype ≤ bits a.dtypeAcc ∧
    (bits dtype < bits a.dtypeAcc → sumReduction op) ∧
    (a.dtype = "half2" ↔ a.dtypeAcc = "half2" ∨ a.dtypeAcc = "float2") ∧
    a.sumScheme =
      (if scheme = "auto" then (if sumType a.opInternal then "block_sum" else "direct_sum")
        else scheme) ∧
    a.sumScheme ∈ ["direct_sum", "block_sum", "kahan_scheme"] ∧
    (a.sumScheme ≠ "direct_sum" → sumReduction op) ∧
    (scheme = "auto" → sumReduction op → a.sumScheme = "block_sum") := by
  unfold accuracy at h
  cases hp : preprocessName op formula2 with
  | none => simp [hp] at h
  | some p =>
  have hst := sumType_iff hp
  cases hf : getOptionalFlags p.1 dtypeAcc dbl scheme chunks fast with
  | none => simp [hp, hf] at h
  | some f =>
  cases hr : parseDtypeAcc f.dtypeAcc dtype with
  | none => simp [hp, hf, hr] at h
  | some r =>
  cases hc : cDtype dtype with
  | none => simp [hp, hf, hr, hc] at h
  | some c =>
  simp [hp, hf, hr, hc] at h
  subst h
  obtain ⟨h1, h2, h3, rfl⟩ := (getOptionalFlags_iff ..).1 hf
  obtain ⟨h4, h5⟩ := (parseDtypeAcc_iff hd _ _).1 hr
  change (if requested dtypeAcc dbl = "auto" then dtype else requested dtypeAcc dbl, dtype, r) ∈ _
    at h5
  have hreq : requested dtypeAcc dbl ≠ "auto" → sumReduction op := by
    intro hne
    rcases h2 with h2 | ⟨h2, h2'⟩
    · exact hst.1 h2
    · simp [requested, h2, h2'] at hne
  generalize requested dtypeAcc dbl = q at h5 hreq ⊢
  have hA : bits c = bits dtype ∧ bits r = bits (if q = "auto" then dtype else q) ∧
      bits dtype ≤ bits r ∧ (bits dtype < bits r → sumReduction op) ∧
      (c = "half2" ↔ r = "half2" ∨ r = "float2") := by
    simp only [List.mem_cons, List.not_mem_nil, or_false, Prod.mk.injEq] at h5
    by_cases hq : q = "auto"
    · simp only [hq, if_true] at h5 ⊢
      rcases h5 with ⟨h, h', rfl⟩ | ⟨h, h', rfl⟩ | ⟨h, h', rfl⟩ | ⟨h, h', rfl⟩ | ⟨h, h', rfl⟩ <;>
        rw [h] at h' hc ⊢ <;> revert h' <;> simp_all [cDtype, bits] <;> subst hc <;> simp [bits]
    · simp only [hq, if_false] at h5 ⊢
      have hs := hreq hq
      rcases h5 with ⟨h, rfl, rfl⟩ | ⟨h, rfl, rfl⟩ | ⟨h, rfl, rfl⟩ | ⟨h, rfl, rfl⟩ | ⟨h, rfl, rfl⟩ <;>
        simp [cDtype] at hc <;> subst hc <;> subst h <;> simp [bits, hs]
  refine ⟨hA.1, hA.2.1, hA.2.2.1, hA.2.2.2.1, hA.2.2.2.2, rfl, ?_, ?_, ?_⟩
  · dsimp only
    split_ifs
    · simp
    · simp
    · rcases h3 with h3 | h3 | ⟨-, h3 | h3⟩ <;> simp_all
  · dsimp only
    intro hne
    split_ifs at hne with h6 h7
    · exact hst.1 h7
    · exact absurd rfl hne
    · rcases h3 with h3 | h3 | ⟨h3, -⟩
      · exact absurd h3 h6
      · exact absurd h3 hne
      · exact hst.1 h3
  · intro h6 h7
    simp [h6, hst.2 h7]

/-- `float16` data with a `float32` accumulator. -/
example : accuracy "LogSumExp" none "float16" "float32" false "kahan_scheme" true false =
    some ⟨"Max_SumShiftExp", "half2", "float2", "kahan_scheme"⟩ := by decide +kernel

example : accuracy "Sum" none "float32" "auto" true "auto" true false =
    some ⟨"Sum", "float", "double", "block_sum"⟩ ∧
  accuracy "Min" none "float32" "float64" false "auto" true false = none ∧
  accuracy "Min" none "float32" "auto" false "kahan_scheme" true false = none ∧
  accuracy "Sum" none "float64" "float32" false "auto" true false = none ∧
  accuracy "Sum" none "float32" "float32" true "auto" true false = none := by decide +kernel

/-! ## C47 -/

/-- C47: if the check on the sizes passes, every index of a reduced row is represented exactly in
the type of the data. Above `2 ^ 53` rows of `float64` data nothing is checked, but such an array
does not fit in memory. -/
theorem C47_exact (op dtype : String) (nred : Nat) (hop : returnsIndices op)
    (hd : dtype ∈ ["float16", "float32", "float64"]) (hbig : nred ≤ 2 ^ 53)
    (h : argCheck op dtype nred = true) : ∀ j < nred, roundNat (bits dtype) j = j := by
  intro j hj
  have harg : isSubstring "Arg" op := by
    unfold returnsIndices at hop
    simp only [List.mem_cons, List.not_mem_nil, or_false] at hop
    rcases hop with rfl | rfl | rfl | rfl | rfl | rfl | rfl | rfl | rfl <;> decide +kernel
  unfold argCheck at h
  rw [if_pos harg] at h
  simp only [List.mem_cons, List.not_mem_nil, or_false] at hd
  rcases hd with rfl | rfl | rfl
  · have hn : nred ≤ 2048 := by
      by_contra hc
      simp at h
      omega
    exact roundNat_le (by decide) (show j ≤ 2 ^ 11 by omega)
  · have hn : nred ≤ 16000000 := by
      by_contra hc
      simp at h
      omega
    exact roundNat_le (by decide) (show j ≤ 2 ^ 24 by omega)
  · exact roundNat_le (by decide) (show j ≤ 2 ^ 53 by omega)

/-- C47 for `argmin`: on the values of a floating point type with `p` significant bits, in which the
integer `n` is stored as `ι (roundNat p n)`, an accepted call returns the integer itself. -/
theorem C47_argmin (V : Type) [LinearOrder V] [OrderTop V] (ι : Nat → V) (d : Nat) (dtype : String)
    (hd : dtype ∈ ["float16", "float32", "float64"]) :
    ∃ S, getScheme (argMinRed (fun n => ι (roundNat (bits dtype) n)) d) .direct = some S ∧
      ∀ (P : Problem V), WfProblem P → 0 < redRows P.tagI P.M P.N →
      redRows P.tagI P.M P.N ≤ 2 ^ 53 →
      argCheck "ArgMin" dtype (redRows P.tagI P.M P.N) = true →
      ∀ out out', Exec (argMinRed (fun n => ι (roundNat (bits dtype) n)) d) S P out out' →
        ∀ i < outRows P.tagI P.M P.N, ∀ k < d,
          ∃ j, IsFirstMin (redRows P.tagI P.M P.N) (fun j => F P i j k) j ∧
            out' (i * d + k) = ι j := by
  obtain ⟨S, hS, h⟩ := C11_argmin V (fun n => ι (roundNat (bits dtype) n)) d
  refine ⟨S, hS, fun P hP h0 hbig hc out out' he i hi k hk => ?_⟩
  obtain ⟨j, hj, ho⟩ := h P hP h0 out out' he i hi k hk
  refine ⟨j, hj, ?_⟩
  rw [ho, C47_exact "ArgMin" dtype _ (by simp [returnsIndices]) hd hbig hc j hj.1]

/-- C47 for `argmax`. -/
theorem C47_argmax (V : Type) [LinearOrder V] [OrderBot V] (ι : Nat → V) (d : Nat) (dtype : String)
    (hd : dtype ∈ ["float16", "float32", "float64"]) :
    ∃ S, getScheme (argMaxRed (fun n => ι (roundNat (bits dtype) n)) d) .direct = some S ∧
      ∀ (P : Problem V), WfProblem P → 0 < redRows P.tagI P.M P.N →
      redRows P.tagI P.M P.N ≤ 2 ^ 53 →
      argCheck "ArgMax" dtype (redRows P.tagI P.M P.N) = true →
      ∀ out out', Exec (argMaxRed (fun n => ι (roundNat (bits dtype) n)) d) S P out out' →
        ∀ i < outRows P.tagI P.M P.N, ∀ k < d,
          ∃ j, IsFirstMax (redRows P.tagI P.M P.N) (fun j => F P i j k) j ∧
            out' (i * d + k) = ι j := by
  obtain ⟨S, hS, h⟩ := C11_argmax V (fun n => ι (roundNat (bits dtype) n)) d
  refine ⟨S, hS, fun P hP h0 hbig hc out out' he i hi k hk => ?_⟩
  obtain ⟨j, hj, ho⟩ := h P hP h0 out out' he i hi k hk
  refine ⟨j, hj, ?_⟩
  rw [ho, C47_exact "ArgMax" dtype _ (by simp [returnsIndices]) hd hbig hc j hj.1]

/-- C47 for `argKmin`: every returned index is that of a sorted list of the values; slots past the
end of the list hold index 0. -/
theorem C47_argkmin (V : Type) [LinearOrder V] [OrderTop V] (ι : Nat → V) (d K : Nat)
    (dtype : String) (hd : dtype ∈ ["float16", "float32", "float64"])
    (sch : SumScheme) (hsch : sch ≠ .kahan) :
    ∃ S, getScheme (argKminRed (fun n => ι (roundNat (bits dtype) n)) d K) sch = some S ∧
      ∀ (P : Problem V), WfProblem P →
      redRows P.tagI P.M P.N ≤ 2 ^ 53 →
      argCheck "ArgKMin" dtype (redRows P.tagI P.M P.N) = true →
      ∀ out out', Exec (argKminRed (fun n => ι (roundNat (bits dtype) n)) d K) S P out out' →
        ∀ i < outRows P.tagI P.M P.N, ∀ k < d,
          ∃ s, IsSortedList (redRows P.tagI P.M P.N) (fun j => F P i j k) s ∧ ∀ l < K,
            out' (i * (K * d) + (k + l * d)) = ι (entry s l).2 := by
  obtain ⟨S, hS, h⟩ := C12_argkmin V (fun n => ι (roundNat (bits dtype) n)) d K sch hsch
  refine ⟨S, hS, fun P hP hbig hc out out' he i hi k hk => ?_⟩
  obtain ⟨s, hs, ho⟩ := h P hP out out' he i hi k hk
  refine ⟨s, hs, fun l hl => ?_⟩
  rw [ho l hl]
  congr 1
  by_cases hl' : l < s.length
  · have hm : entry s l ∈ s := by
      unfold entry
      rw [List.getD_eq_getElem _ _ hl']
      exact List.getElem_mem hl'
    have hj : (entry s l).2 < redRows P.tagI P.M P.N := by
      have := hs.1.subset hm
      rw [List.mem_filter, List.mem_map] at this
      obtain ⟨⟨j, hj, he⟩, -⟩ := this
      rw [← he]
      exact List.mem_range.1 hj
    exact C47_exact "ArgKMin" dtype _ (by simp [returnsIndices]) hd hbig hc _ hj
  · have : entry s l = (⊤, 0) := by
      unfold entry
      exact List.getD_eq_default _ _ (by omega)
    rw [this]
    exact roundNat_le (by simp only [List.mem_cons, List.not_mem_nil, or_false] at hd; rcases hd with rfl | rfl | rfl <;> decide) (by simp)

/-- The bound is close to the largest possible one: `2 ^ 24 + 1` is not a `float32`. -/
example : roundNat (bits "float32") (2 ^ 24 + 1) ≠ 2 ^ 24 + 1 ∧
    argCheck "ArgKMin" "float32" (2 ^ 24 + 2) = false ∧
    argCheck "ArgKMin" "float32" 16000000 = true ∧
    roundNat (bits "float16") 2049 ≠ 2049 ∧ argCheck "Min_ArgMin" "float16" 2050 = false ∧
    argCheck "Min_ArgMin" "float16" 2048 = true := by decide +kernel

end Verif
