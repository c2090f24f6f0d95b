import Verif.Proofs.CodeTypes
import Verif.Props.Options

/-!
# C72: the code of every accepted combination of options can be written

A call is described by the reduction, the options `dtype_acc`, `use_double_acc` and `sum_scheme`, the type of the data,
and the class of the kernel, chosen from the backend, the ranges and the dimensions of the formula.
-/

namespace Verif.Types

open Spec

/-- What `accuracy` gives. -/
theorem accuracy_some {op : String} {formula2 : Option String} {dtype dtypeAcc : String} {dbl : Bool} {scheme : String}
    {chunks fast : Bool} {a : Accuracy} (hd : dtype ∈ ["float16", "float32", "float64"])
    (h : accuracy op formula2 dtype dtypeAcc dbl scheme chunks fast = some a) :
    (∃ f2, preprocessName op formula2 = some (a.opInternal, f2)) ∧
    (sumReduction op ∨ requested dtypeAcc dbl = "auto") ∧
    (scheme = "auto" ∨ scheme = "direct_sum" ∨
      (sumReduction op ∧ (scheme = "block_sum" ∨ scheme = "kahan_scheme"))) ∧
    (sumReduction op → a.sumScheme = if scheme = "auto" then "block_sum" else scheme) ∧
    (¬ sumReduction op → a.sumScheme = "direct_sum") ∧
    cDtype dtype = some a.dtype ∧
    (if requested dtypeAcc dbl = "auto" then dtype else requested dtypeAcc dbl, dtype, a.dtypeAcc) ∈
        [("float16", "float16", "half2"), ("float32", "float16", "float2"),
          ("float32", "float32", "float"), ("float64", "float32", "double"),
          ("float64", "float64", "double")] := by
  unfold accuracy at h
  simp only [Option.bind_eq_bind, Option.bind_eq_some_iff, Option.pure_def, Option.some.injEq] at h
  obtain ⟨p, hp, f, hf, acc, hacc, c, hc, rfl⟩ := h
  rw [getOptionalFlags_iff] at hf
  obtain ⟨h1, h2, h3, rfl⟩ := hf
  have hs := sumType_iff hp
  rw [parseDtypeAcc_iff hd] at hacc
  refine ⟨⟨p.2, hp⟩, ?_, ?_, ?_, ?_, hc, hacc.2⟩
  · rw [← hs]
    rcases h2 with h | ⟨h, h'⟩
    · exact Or.inl h
    · exact Or.inr (by simp [requested, h, h'])
  · rwa [← hs]
  · intro h
    have h := hs.2 h
    simp [h]
  · intro h
    have h : ¬ sumType p.1 := fun h' => h (hs.1 h')
    rcases h3 with rfl | rfl | h3
    · simp [h]
    · simp
    · exact absurd h3.1 h

/-- The internal reduction of the names that a user may write. -/
theorem internal_of {op : String} {f2 g2 : Option String} {i : String} (h : preprocessName op f2 = some (i, g2))
    (hop : knownReduction op) (K d : Nat) :
    (op = "Sum" ∧ i = "Sum") ∨
    (op ≠ "Sum" ∧ sumReduction op ∧ ∃ d', Red.ofName K d i = some (.lse d')) ∨
    (¬ sumReduction op ∧
      ((∃ m k, Red.ofName K d i = some (.ext m k d)) ∨ (∃ k, Red.ofName K d i = some (.kmin k K d)))) := by
  simp only [knownReduction, List.mem_cons, List.not_mem_nil, or_false] at hop
  unfold preprocessName at h
  rcases hop with rfl | rfl | rfl | rfl | rfl | rfl | rfl | rfl | rfl | rfl | rfl | rfl | rfl | rfl | rfl | rfl
  · simp at h; exact Or.inl ⟨rfl, h.1.symm⟩
  · refine Or.inr (Or.inl ⟨by decide, by simp [sumReduction], ?_⟩)
    simp at h
    split_ifs at h <;> simp only [Option.some.injEq, Prod.mk.injEq] at h <;> rw [← h.1]
    · exact ⟨d, rfl⟩
    · exact ⟨1, rfl⟩
  · refine Or.inr (Or.inl ⟨by decide, by simp [sumReduction], ?_⟩)
    simp at h
    rw [← h.2.1]
    exact ⟨d, rfl⟩
  · refine Or.inr (Or.inl ⟨by decide, by simp [sumReduction], ?_⟩)
    simp at h
    obtain ⟨_, _, h, _⟩ := h
    rw [← h]
    exact ⟨d, rfl⟩
  · refine Or.inr (Or.inl ⟨by decide, by simp [sumReduction], ?_⟩)
    simp at h
    obtain ⟨_, _, h, _⟩ := h
    rw [← h]
    exact ⟨d, rfl⟩
  · refine Or.inr (Or.inl ⟨by decide, by simp [sumReduction], ?_⟩)
    simp at h
    rw [← h.1]
    exact ⟨1, rfl⟩
  · refine Or.inr (Or.inl ⟨by decide, by simp [sumReduction], ?_⟩)
    simp at h
    rw [← h.1]
    exact ⟨d, rfl⟩
  all_goals
    simp at h
    refine Or.inr (Or.inr ⟨by simp [sumReduction], ?_⟩)
    rw [← h.1]
    first
      | exact Or.inl ⟨_, _, rfl⟩
      | exact Or.inr ⟨_, rfl⟩

/-- The types of the data and of the accumulators. -/
theorem types_of {dtype acc adt aacc : String} (hcd : cDtype dtype = some adt)
    (hacc : (if acc = "auto" then dtype else acc, dtype, aacc) ∈
        [("float16", "float16", "half2"), ("float32", "float16", "float2"),
          ("float32", "float32", "float"), ("float64", "float32", "double"),
          ("float64", "float64", "double")]) :
    ∃ dt dta, CT.ofName adt = some dt ∧ CT.ofName aacc = some dta ∧ (dt, dta) ∈ typePairs ∧
      (dt = .half2 ↔ dtype = "float16") ∧ (dta = .float2 ↔ dtype = "float16" ∧ acc = "float32") ∧
      (dta = dt ↔ acc = "auto" ∨ acc = dtype) := by
  simp only [List.mem_cons, List.not_mem_nil, or_false, Prod.mk.injEq] at hacc
  rcases hacc with ⟨h1, rfl, rfl⟩ | ⟨h1, rfl, rfl⟩ | ⟨h1, rfl, rfl⟩ | ⟨h1, rfl, rfl⟩ | ⟨h1, rfl, rfl⟩ <;>
    (simp [cDtype] at hcd; subst hcd; refine ⟨_, _, rfl, rfl, by decide, by decide, ?_⟩) <;>
    by_cases h : acc = "auto" <;> simp_all

/-- The scheme of a sum. -/
theorem scheme_of {scheme : String}
    (h : scheme = "auto" ∨ scheme = "direct_sum" ∨ scheme = "block_sum" ∨ scheme = "kahan_scheme") :
    ∃ s, Sch.ofName (if scheme = "auto" then "block_sum" else scheme) = some s ∧
      (s = .block ↔ scheme = "auto" ∨ scheme = "block_sum") ∧ (s = .kahan ↔ scheme = "kahan_scheme") := by
  rcases h with rfl | rfl | rfl | rfl <;> exact ⟨_, rfl, by decide, by decide⟩

/-- **C72 (partial).** For every combination of options that is accepted, every reduction and every class of kernel, the
writer of the code raises no exception and the code has no error of type if and only if the combination is in the list
`Writable`. The classes of the final chunks are only used for sums, and half precision does not exist on the CPU. -/
theorem C72_partial (c : Cls) (op : String) (formula2 : Option String) (dtype dtypeAcc : String) (dbl : Bool)
    (scheme : String) (chunks fast : Bool) (K d : Nat) (a : Accuracy)
    (hd : dtype ∈ ["float16", "float32", "float64"]) (hop : knownReduction op) (hpos : 0 < d)
    (hf : c.isFinal → op = "Sum") (hc : c.isCpu → dtype ≠ "float16")
    (h : accuracy op formula2 dtype dtypeAcc dbl scheme chunks fast = some a) :
    ∃ r, codeOf c a K d = some r ∧ (r = .ok () ↔ Writable c op scheme dtype (requested dtypeAcc dbl)) := by
  obtain ⟨⟨g2, hp⟩, hr, hsch, hs1, hs2, hcd, hacc⟩ := accuracy_some hd h
  generalize requested dtypeAcc dbl = acc at hr hacc ⊢
  obtain ⟨i, adt, aacc, asch⟩ := a
  simp only at hp hs1 hs2 hcd hacc
  have hi := internal_of hp hop K d
  unfold codeOf Writable
  simp only [Cls.isFinal, Cls.isChunked, Cls.isCpu] at hf hc ⊢
  obtain ⟨dt, dta, e1, e2, hp2, t1, t2, t3⟩ := types_of hcd hacc
  have hc' : c = .cpu ∨ c = .cpuRanges → dt ≠ .half2 := fun h h' => hc h (t1.1 h')
  rcases hi with ⟨rfl, rfl⟩ | ⟨hne, hsum, d', hR⟩ | ⟨hns, hR⟩
  · have hsum : sumReduction "Sum" := Or.inl rfl
    obtain ⟨s, es, s1, s2⟩ := scheme_of (hsch.imp id (Or.imp id And.right))
    rw [← hs1 hsum] at es
    refine ⟨getCode c (.sum d) s dt dta, by simp [Red.ofName, es, e1, e2], ?_⟩
    rw [sum_ok c s d dt dta hp2 hc', s1, s2, t2, ne_eq, t1]
    exact ⟨fun h => ⟨fun _ => h, fun _ h' => absurd rfl h', fun h' => absurd hsum h'⟩, fun h => h.1 rfl⟩
  · obtain ⟨s, es, s1, s2⟩ := scheme_of (hsch.imp id (Or.imp id And.right))
    rw [← hs1 hsum] at es
    refine ⟨getCode c (.lse d') s dt dta, by simp [hR, es, e1, e2], ?_⟩
    rw [lse_ok c s d' dt dta hp2 hc' (fun h => hne (hf h)), ne_eq, s1, s2, ne_eq, t1, t3]
    exact ⟨fun h => ⟨fun e => absurd e hne, fun _ _ => h, fun h' => absurd hsum h'⟩, fun h => h.2.1 hsum hne⟩
  · have hauto : acc = "auto" := hr.resolve_left hns
    have hdt : dta = dt := t3.2 (Or.inl hauto)
    subst hdt
    have hne : op ≠ "Sum" := fun h => hns (h ▸ Or.inl rfl)
    have hq : dta = .half2 ∨ dta = .float ∨ dta = .double := by
      simp only [typePairs, List.mem_cons, Prod.mk.injEq, List.not_mem_nil, or_false] at hp2
      grind
    have es : Sch.ofName asch = some .direct := by rw [hs2 hns]; rfl
    rcases hR with ⟨m, k, hR⟩ | ⟨k, hR⟩
    · refine ⟨getCode c (.ext m k d) .direct dta dta, by simp [hR, es, e1, e2], ?_⟩
      rw [ext_ok c m k d hpos dta hq hc' (fun h => hne (hf h)), ne_eq, t1]
      exact ⟨fun h => ⟨fun e => absurd e hne, fun h' => absurd h' hns, fun _ => h⟩, fun h => h.2.2 hns⟩
    · refine ⟨getCode c (.kmin k K d) .direct dta dta, by simp [hR, es, e1, e2], ?_⟩
      rw [kmin_ok c k K d dta hq hc' (fun h => hne (hf h)), ne_eq, t1]
      exact ⟨fun h => ⟨fun e => absurd e hne, fun h' => absurd h' hns, fun _ => h⟩, fun h => h.2.2 hns⟩

/-- The statement of C72 without exception: the code of every accepted combination can be written. -/
def AllWritten : Prop :=
  ∀ (c : Cls) (op : String) (formula2 : Option String) (dtype dtypeAcc : String) (dbl : Bool) (scheme : String)
    (chunks fast : Bool) (K d : Nat) (a : Accuracy), dtype ∈ ["float16", "float32", "float64"] → knownReduction op →
    0 < d → (c.isFinal → op = "Sum") → (c.isCpu → dtype ≠ "float16") →
    accuracy op formula2 dtype dtypeAcc dbl scheme chunks fast = some a → codeOf c a K d = some (.ok ())

/-- A log-sum-exp of `float32` data with `use_double_acc=True` is accepted, but on every backend the writer of the code
stops with a `KeOps_Error`: it subtracts the maxima of the block and of the accumulator, which have different types. -/
theorem not_C72_lse_double (c : Cls) (hf : ¬ c.isFinal) (d : Nat) (chunks fast : Bool) :
    ∃ a, accuracy "LogSumExp" none "float32" "auto" true "auto" chunks fast = some a ∧
      codeOf c a 1 d = some (.error .keops) := by
  refine ⟨⟨"Max_SumShiftExp", "float", "double", "block_sum"⟩, by cases chunks <;> cases fast <;> decide +kernel, ?_⟩
  cases c
  case finalChunks => exact absurd (Or.inl rfl) hf
  case rangesFinalChunks => exact absurd (Or.inr rfl) hf
  all_goals rfl

/-- With `backend="GPU_2D"` a minimum is accepted, but the writer of the code stops with an `AttributeError` (the direct
scheme has no temporary accumulator), or with a `TypeError` for the position of the minimum (a method gets three arguments
instead of four). -/
theorem not_C72_min_2d (K d : Nat) (hd : 0 < d) (op : String) (hop : op ∈ ["Min", "ArgMin", "Max", "ArgMax", "ArgKMin"])
    (dtype : String) (hdt : dtype = "float32" ∨ dtype = "float64") :
    ∃ a, accuracy op none dtype "auto" false "auto" true false = some a ∧
      codeOf .gpu2D a K d = some (.error (if op = "ArgMin" ∨ op = "ArgMax" then .type else .attribute)) := by
  simp only [List.mem_cons, List.not_mem_nil, or_false] at hop
  refine ⟨⟨op, if dtype = "float32" then "float" else "double", if dtype = "float32" then "float" else "double",
    "direct_sum"⟩, ?_, ?_⟩
  · rcases hop with rfl | rfl | rfl | rfl | rfl <;> rcases hdt with rfl | rfl <;> decide +kernel
  rcases hop with rfl | rfl | rfl | rfl | rfl <;> rcases hdt with rfl | rfl
  all_goals
    simp only [if_true, reduceIte, String.reduceEq, codeOf, Red.ofName, Sch.ofName, CT.ofName, Option.bind_eq_bind, Option.bind_some, Option.some.injEq]
    rw [getCode_one] <;> first | rfl | exact hd | exact trivial

/-- The Kahan scheme for a sum of `float16` data with accumulators of type `float32` is accepted, but the code does not
compile: there is no operation on `float2`. -/
theorem not_C72_kahan_half (c : Cls) (hc : c = .gpu1D ∨ c = .gpu1DRanges) (d : Nat) :
    ∃ a, accuracy "Sum" none "float16" "float32" false "kahan_scheme" true false = some a ∧
      codeOf c a 1 d = some (.error .compile) := by
  refine ⟨⟨"Sum", "half2", "float2", "kahan_scheme"⟩, by decide +kernel, ?_⟩
  rcases hc with rfl | rfl <;>
  · simp only [codeOf, Red.ofName, Sch.ofName, CT.ofName, Option.bind_eq_bind, Option.bind_some, Option.some.injEq]
    rw [getCode_one] <;> first | rfl | exact trivial

/-- The Kahan scheme and the direct scheme for a sum of a product of high dimension, with the classes of the final
chunks: a `KeOps_Error`. -/
theorem not_C72_final_chunks (c : Cls) (hc : c.isFinal) (d : Nat) (scheme : String)
    (hs : scheme = "direct_sum" ∨ scheme = "kahan_scheme") :
    ∃ a, accuracy "Sum" none "float32" "auto" false scheme true false = some a ∧
      codeOf c a 1 d = some (.error .keops) := by
  refine ⟨⟨"Sum", "float", "float", scheme⟩, by rcases hs with rfl | rfl <;> decide +kernel, ?_⟩
  rcases hs with rfl | rfl <;> rcases hc with rfl | rfl <;> rfl

/-- A sum of half precision data with the default options, when the formula is computed by chunks: a `KeOps_Error` (the
size of the type `half2` is "not implemented"). -/
theorem not_C72_half_chunks (c : Cls) (hc : c.isChunked) (d : Nat) :
    ∃ a, accuracy "Sum" none "float16" "auto" false "auto" true false = some a ∧
      codeOf c a 1 d = some (.error .keops) := by
  refine ⟨⟨"Sum", "half2", "half2", "block_sum"⟩, by decide +kernel, ?_⟩
  rcases hc with rfl | rfl | rfl | rfl <;> rfl

/-- **C72 fails**: not every accepted combination gives a code. -/
theorem not_C72 : ¬ AllWritten := by
  intro h
  obtain ⟨a, h1, h2⟩ := not_C72_lse_double .cpu (by simp [Cls.isFinal]) 1 true false
  have := h .cpu "LogSumExp" none "float32" "auto" true "auto" true false 1 1 a (by decide) (by simp [knownReduction])
    (by decide)
    (fun h => absurd h (by simp [Cls.isFinal])) (fun _ => by decide) h1
  rw [h2] at this
  simp at this

/-- The names `MinArgMin`, `MaxArgMax` and `KMinArgKMin`, which the documentation of `Genred` lists and which the
construction of the object accepts, are the name of no reduction. -/
theorem not_C72_names (c : Cls) (op : String) (hop : op ∈ ["MinArgMin", "MaxArgMax", "KMinArgKMin"]) (K d : Nat) :
    ∃ a, accuracy op none "float32" "auto" false "auto" true false = some a ∧ codeOf c a K d = none := by
  simp only [List.mem_cons, List.not_mem_nil, or_false] at hop
  refine ⟨⟨op, "float", "float", "direct_sum"⟩, by rcases hop with rfl | rfl | rfl <;> decide +kernel, ?_⟩
  rcases hop with rfl | rfl | rfl <;> rfl

/-- With the default options the code is written for data in single or double precision, on every backend except the 2D
scheme, whatever the reduction. -/
theorem C72_default (c : Cls) (op : String) (formula2 : Option String) (dtype : String) (chunks fast : Bool) (K d : Nat)
    (a : Accuracy) (hd : dtype = "float32" ∨ dtype = "float64") (hop : knownReduction op) (hpos : 0 < d)
    (hf : c.isFinal → op = "Sum") (h2 : c ≠ .gpu2D)
    (h : accuracy op formula2 dtype "auto" false "auto" chunks fast = some a) : codeOf c a K d = some (.ok ()) := by
  have h16 : dtype ≠ "float16" := by rcases hd with rfl | rfl <;> decide
  obtain ⟨r, h1, h3⟩ := C72_partial c op formula2 dtype "auto" false "auto" chunks fast K d a
    (by rcases hd with rfl | rfl <;> decide) hop hpos hf (fun _ => h16) h
  rw [h1, h3.2]
  exact ⟨fun _ => ⟨fun _ => Or.inl rfl, fun _ => h16, fun h => absurd h.1 (by decide)⟩,
    fun _ _ => ⟨by decide, h16, Or.inl rfl, fun h => absurd h h2⟩, fun _ => ⟨h16, h2⟩⟩

/-- With the default options a minimum of vectors, on the GPU with ranges. -/
example : ∃ a, accuracy "Min_ArgMin" none "float64" "auto" false "auto" true false = some a ∧
    codeOf .gpu1DRanges a 1 3 = some (.ok ()) := by
  refine ⟨⟨"Min_ArgMin", "double", "double", "direct_sum"⟩, by decide +kernel, ?_⟩
  exact C72_default .gpu1DRanges "Min_ArgMin" none "float64" true false 1 3 _ (Or.inr rfl)
    (by simp [knownReduction]) (by decide)
    (fun h => absurd h (by simp [Cls.isFinal])) (by decide) (by decide +kernel)

/-- A sum of half precision with accumulators in single precision and the default scheme. -/
example : ∃ a, accuracy "Sum" none "float16" "float32" false "auto" true false = some a ∧
    codeOf .gpu1D a 1 3 = some (.ok ()) ∧ Writable .gpu1D "Sum" "auto" "float16" "float32" := by
  refine ⟨⟨"Sum", "half2", "float2", "block_sum"⟩, by decide +kernel, by rfl, ?_⟩
  simp [Writable, Cls.isFinal, Cls.isChunked, sumReduction]

end Verif.Types
