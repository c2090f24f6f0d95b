import Verif.Props.MethodsRed
import Verif.Spec.Rename

/-!
# C41 for the other reductions
-/

namespace Verif.Lazy

open Spec (LExpr PyE PyRed rowsOut rowsRed)

/-- The vectors reduced by `K.t()` along an axis are those reduced by `K` along the other one. -/
theorem along_t (fresh : Nat → Nat) (K : PyE) (data : Data) {a : Nat} (ha : a < 2) (i j : Nat) :
    (PyE.t fresh K).along data a i j = K.along data (1 - a) i j := by
  obtain rfl | rfl : a = 0 ∨ a = 1 := by omega
  all_goals simp [PyE.along, PyE.val]

theorem FirstLeast.unique {js : List Nat} {f : Nat → ℝ} {j l : Nat} (h : FirstLeast js f j) (h' : FirstLeast js f l) :
    j = l := by
  obtain ⟨pre, post, e, h1, h2⟩ := h
  obtain ⟨pre', post', e', h1', h2'⟩ := h'
  rw [e, List.append_eq_append_iff] at e'
  rcases e' with ⟨c, rfl, e'⟩ | ⟨c, rfl, e'⟩
  · cases c with
    | nil => exact (List.cons.inj e').1
    | cons x c =>
      obtain ⟨rfl, rfl⟩ := List.cons.inj e'
      have a := h1' j (by simp)
      have b := h2 l (by simp)
      exact absurd a (not_lt.mpr b)
  · cases c with
    | nil => exact (List.cons.inj e').1.symm
    | cons x c =>
      obtain ⟨rfl, rfl⟩ := List.cons.inj e'
      have a := h1 l (by simp)
      have b := h2' j (by simp)
      exact absurd a (not_lt.mpr b)

variable {fresh : Nat → Nat} {K : PyE} {a : Nat} {c c' : RedCall} {ex ex' : Expr} {m n : Nat} {data : Data}

/-- **C41**, sums. -/
theorem C41_sum (ha : a < 2) (hp : ProperRed .sum (.t fresh K)) (hp' : ProperRed .sum K)
    (h : redCall .sum (.t fresh K) (nbatch (.t fresh K) + a) = some c)
    (h' : redCall .sum K (nbatch K + (1 - a)) = some c') (hx : Runs c.f ex) (hx' : Runs c'.f ex')
    (hd : Domain .sum (.t fresh K) data n m) (hd' : Domain .sum K data m n) (P : PostNum ℝ) (sch : SumScheme) :
    ∃ S S', getScheme (sumRed (V := ℝ) ex.dim) sch = some S ∧ getScheme (sumRed (V := ℝ) ex'.dim) sch = some S' ∧
      ∀ js i row row', OutRow .sum (.t fresh K) id id c ex (sumRed ex.dim) S data n m a js i row →
        OutRow .sum K id id c' ex' (sumRed ex'.dim) S' data m n (1 - a) js i row' →
        ∃ arr arr', postprocess P (redOp .sum) (optArg .sum) (sumRed (V := ℝ) ex.dim).dim row = some [arr] ∧
          postprocess P (redOp .sum) (optArg .sum) (sumRed (V := ℝ) ex'.dim).dim row' = some [arr'] ∧
          arr.shape = arr'.shape ∧ ∀ k < K.dim, arr.get k = arr'.get k := by
  obtain ⟨-, S, hS, h1⟩ := C62_sum hp h hx hd P sch
  obtain ⟨-, S', hS', h2⟩ := C62_sum hp' h' hx' hd' P sch
  refine ⟨S, S', hS, hS', fun js i row row' ho ho' => ?_⟩
  obtain ⟨arr, e1, e2, e3⟩ := h1 js i row ho
  obtain ⟨arr', e1', e2', e3'⟩ := h2 js i row' ho'
  refine ⟨arr, arr', e1, e1', e2.trans e2'.symm, fun k hk => ?_⟩
  rw [e3 k hk, e3' k hk]
  simp only [along_t fresh K data ha]

/-- **C41**, minima. -/
theorem C41_min (ha : a < 2) (hp : ProperRed .min (.t fresh K)) (hp' : ProperRed .min K)
    (h : redCall .min (.t fresh K) (nbatch (.t fresh K) + a) = some c)
    (h' : redCall .min K (nbatch K + (1 - a)) = some c') (hx : Runs c.f ex) (hx' : Runs c'.f ex')
    (hd : Domain .min (.t fresh K) data n m) (hd' : Domain .min K data m n) (P : PostNum EReal) :
    ∃ S S', getScheme (minRed (V := EReal) ex.dim) .direct = some S ∧
      getScheme (minRed (V := EReal) ex'.dim) .direct = some S' ∧
      ∀ js i row row', js ≠ [] →
        OutRow .min (.t fresh K) Real.toEReal EReal.toReal c ex (minRed ex.dim) S data n m a js i row →
        OutRow .min K Real.toEReal EReal.toReal c' ex' (minRed ex'.dim) S' data m n (1 - a) js i row' →
        ∃ arr arr', postprocess P (redOp .min) (optArg .min) (minRed (V := EReal) ex.dim).dim row = some [arr] ∧
          postprocess P (redOp .min) (optArg .min) (minRed (V := EReal) ex'.dim).dim row' = some [arr'] ∧
          arr.shape = arr'.shape ∧ ∀ k < K.dim, arr.get k = arr'.get k := by
  obtain ⟨-, S, hS, h1⟩ := C62_min hp h hx hd P
  obtain ⟨-, S', hS', h2⟩ := C62_min hp' h' hx' hd' P
  refine ⟨S, S', hS, hS', fun js i row row' hne ho ho' => ?_⟩
  obtain ⟨arr, e1, e2, e3⟩ := h1 js i row ho hne
  obtain ⟨arr', e1', e2', e3'⟩ := h2 js i row' ho' hne
  refine ⟨arr, arr', e1, e1', e2.trans e2'.symm, fun k hk => ?_⟩
  obtain ⟨x, hx, hl⟩ := e3 k hk
  obtain ⟨y, hy, hl'⟩ := e3' k hk
  simp only [along_t fresh K data ha] at hl
  rw [hx, hy, hl.unique hl']

/-- **C41**, indices of minima. -/
theorem C41_argmin (ha : a < 2) (hp : ProperRed .argmin (.t fresh K)) (hp' : ProperRed .argmin K)
    (h : redCall .argmin (.t fresh K) (nbatch (.t fresh K) + a) = some c)
    (h' : redCall .argmin K (nbatch K + (1 - a)) = some c') (hx : Runs c.f ex) (hx' : Runs c'.f ex')
    (hd : Domain .argmin (.t fresh K) data n m) (hd' : Domain .argmin K data m n) (P : PostNum EReal)
    (cast : Nat → EReal) :
    ∃ S S', getScheme (argMinRed cast ex.dim) .direct = some S ∧ getScheme (argMinRed cast ex'.dim) .direct = some S' ∧
      ∀ js i row row', js ≠ [] →
        OutRow .argmin (.t fresh K) Real.toEReal EReal.toReal c ex (argMinRed cast ex.dim) S data n m a js i row →
        OutRow .argmin K Real.toEReal EReal.toReal c' ex' (argMinRed cast ex'.dim) S' data m n (1 - a) js i row' →
        ∃ arr arr', postprocess P (redOp .argmin) (optArg .argmin) (argMinRed cast ex.dim).dim row = some [arr] ∧
          postprocess P (redOp .argmin) (optArg .argmin) (argMinRed cast ex'.dim).dim row' = some [arr'] ∧
          arr.shape = arr'.shape ∧ ∀ k < K.dim, arr.get k = arr'.get k := by
  obtain ⟨-, S, hS, h1⟩ := C62_argmin hp h hx hd P cast
  obtain ⟨-, S', hS', h2⟩ := C62_argmin hp' h' hx' hd' P cast
  refine ⟨S, S', hS, hS', fun js i row row' hne ho ho' => ?_⟩
  obtain ⟨arr, e1, e2, e3⟩ := h1 js i row ho hne
  obtain ⟨arr', e1', e2', e3'⟩ := h2 js i row' ho' hne
  refine ⟨arr, arr', e1, e1', e2.trans e2'.symm, fun k hk => ?_⟩
  obtain ⟨x, hx, hl⟩ := e3 k hk
  obtain ⟨y, hy, hl'⟩ := e3' k hk
  simp only [along_t fresh K data ha] at hx
  rw [hl, hl', FirstLeast.unique hx hy]

/-- **C41**, log-sum-exp. -/
theorem C41_logsumexp (ha : a < 2) (hp : ProperRed .logsumexp (.t fresh K)) (hp' : ProperRed .logsumexp K)
    (h : redCall .logsumexp (.t fresh K) (nbatch (.t fresh K) + a) = some c)
    (h' : redCall .logsumexp K (nbatch K + (1 - a)) = some c') (hx : Runs c.f ex) (hx' : Runs c'.f ex')
    (hd : Domain .logsumexp (.t fresh K) data n m) (hd' : Domain .logsumexp K data m n) (g : ℝ → XR) (long : XR → XR)
    (sch : SumScheme) (hsch : sch ≠ .kahan) :
    ∃ S, getScheme (@lseRed XR (xrNum g) 1) sch = some S ∧ ∀ js i row row', js ≠ [] →
        OutRow .logsumexp (.t fresh K) XR.fin XR.val c ex (@lseRed XR (xrNum g) 1) S data n m a js i row →
        OutRow .logsumexp K XR.fin XR.val c' ex' (@lseRed XR (xrNum g) 1) S data m n (1 - a) js i row' →
        ∃ arr arr',
          postprocess (xrPost long) (redOp .logsumexp) (optArg .logsumexp) (@lseRed XR (xrNum g) 1).dim row = some [arr] ∧
          postprocess (xrPost long) (redOp .logsumexp) (optArg .logsumexp) (@lseRed XR (xrNum g) 1).dim row' =
            some [arr'] ∧
          arr.shape = arr'.shape ∧ arr.get 0 = arr'.get 0 := by
  obtain ⟨-, S, hS, h1⟩ := C62_logsumexp hp h hx hd g long sch hsch
  obtain ⟨-, S', hS', h2⟩ := C62_logsumexp hp' h' hx' hd' g long sch hsch
  obtain rfl : S = S' := Option.some.inj (hS.symm.trans hS')
  refine ⟨S, hS, fun js i row row' hne ho ho' => ?_⟩
  obtain ⟨arr, e1, e2, e3⟩ := h1 js i row ho hne
  obtain ⟨arr', e1', e2', e3'⟩ := h2 js i row' ho' hne
  refine ⟨arr, arr', e1, e1', e2.trans e2'.symm, ?_⟩
  rw [e3, e3']
  simp only [along_t fresh K data ha]

theorem FirstGreatest.unique {js : List Nat} {f : Nat → ℝ} {j l : Nat} (h : FirstGreatest js f j)
    (h' : FirstGreatest js f l) : j = l := by
  obtain ⟨pre, post, e, h1, h2⟩ := h
  obtain ⟨pre', post', e', h1', h2'⟩ := h'
  exact FirstLeast.unique (f := fun l => -f l)
    ⟨pre, post, e, fun l hl => neg_lt_neg (h1 l hl), fun l hl => neg_le_neg (h2 l hl)⟩
    ⟨pre', post', e', fun l hl => neg_lt_neg (h1' l hl), fun l hl => neg_le_neg (h2' l hl)⟩

theorem SortedBy.unique {js : List Nat} {f : Nat → ℝ} {σ τ : List Nat} (h : SortedBy js f σ) (h' : SortedBy js f τ) :
    σ = τ := by
  refine (h.1.trans h'.1.symm).eq_of_pairwise (le := fun a b => f a < f b ∨ (f a = f b ∧ a < b)) ?_ h.2 h'.2
  rintro a b - - (h | ⟨h1, h2⟩) (h' | ⟨h1', h2'⟩)
  · exact absurd h (not_lt.mpr h'.le)
  · exact absurd h (by rw [h1']; exact lt_irrefl _)
  · exact absurd h' (by rw [h1]; exact lt_irrefl _)
  · omega

/-- **C41**, maxima. -/
theorem C41_max (ha : a < 2) (hp : ProperRed .max (.t fresh K)) (hp' : ProperRed .max K)
    (h : redCall .max (.t fresh K) (nbatch (.t fresh K) + a) = some c)
    (h' : redCall .max K (nbatch K + (1 - a)) = some c') (hx : Runs c.f ex) (hx' : Runs c'.f ex')
    (hd : Domain .max (.t fresh K) data n m) (hd' : Domain .max K data m n) (P : PostNum EReal) :
    ∃ S S', getScheme (maxRed (V := EReal) ex.dim) .direct = some S ∧ getScheme (maxRed (V := EReal) ex'.dim) .direct = some S' ∧
      ∀ js i row row', js ≠ [] →
        OutRow .max (.t fresh K) Real.toEReal EReal.toReal c ex (maxRed (V := EReal) ex.dim) S data n m a js i row →
        OutRow .max K Real.toEReal EReal.toReal c' ex' (maxRed (V := EReal) ex'.dim) S' data m n (1 - a) js i row' →
        ∃ arr arr', postprocess P (redOp .max) (optArg .max) (maxRed (V := EReal) ex.dim).dim row = some [arr] ∧
          postprocess P (redOp .max) (optArg .max) (maxRed (V := EReal) ex'.dim).dim row' = some [arr'] ∧
          arr.shape = arr'.shape ∧ ∀ k < K.dim, arr.get k = arr'.get k := by
  obtain ⟨-, S, hS, h1⟩ := C62_max hp h hx hd P
  obtain ⟨-, S', hS', h2⟩ := C62_max hp' h' hx' hd' P
  refine ⟨S, S', hS, hS', fun js i row row' hne ho ho' => ?_⟩
  obtain ⟨arr, e1, e2, e3⟩ := h1 js i row ho hne
  obtain ⟨arr', e1', e2', e3'⟩ := h2 js i row' ho' hne
  refine ⟨arr, arr', e1, e1', e2.trans e2'.symm, fun k hk => ?_⟩
  obtain ⟨x, hx, hl⟩ := e3 k hk
  obtain ⟨y, hy, hl'⟩ := e3' k hk
  simp only [along_t fresh K data ha] at hl
  rw [hx, hy, hl.unique hl']

/-- **C41**, indices of maxima. -/
theorem C41_argmax (ha : a < 2) (hp : ProperRed .argmax (.t fresh K)) (hp' : ProperRed .argmax K)
    (h : redCall .argmax (.t fresh K) (nbatch (.t fresh K) + a) = some c)
    (h' : redCall .argmax K (nbatch K + (1 - a)) = some c') (hx : Runs c.f ex) (hx' : Runs c'.f ex')
    (hd : Domain .argmax (.t fresh K) data n m) (hd' : Domain .argmax K data m n) (P : PostNum EReal) (cast : Nat → EReal) :
    ∃ S S', getScheme (argMaxRed cast ex.dim) .direct = some S ∧ getScheme (argMaxRed cast ex'.dim) .direct = some S' ∧
      ∀ js i row row', js ≠ [] →
        OutRow .argmax (.t fresh K) Real.toEReal EReal.toReal c ex (argMaxRed cast ex.dim) S data n m a js i row →
        OutRow .argmax K Real.toEReal EReal.toReal c' ex' (argMaxRed cast ex'.dim) S' data m n (1 - a) js i row' →
        ∃ arr arr', postprocess P (redOp .argmax) (optArg .argmax) (argMaxRed cast ex.dim).dim row = some [arr] ∧
          postprocess P (redOp .argmax) (optArg .argmax) (argMaxRed cast ex'.dim).dim row' = some [arr'] ∧
          arr.shape = arr'.shape ∧ ∀ k < K.dim, arr.get k = arr'.get k := by
  obtain ⟨-, S, hS, h1⟩ := C62_argmax hp h hx hd P cast
  obtain ⟨-, S', hS', h2⟩ := C62_argmax hp' h' hx' hd' P cast
  refine ⟨S, S', hS, hS', fun js i row row' hne ho ho' => ?_⟩
  obtain ⟨arr, e1, e2, e3⟩ := h1 js i row ho hne
  obtain ⟨arr', e1', e2', e3'⟩ := h2 js i row' ho' hne
  refine ⟨arr, arr', e1, e1', e2.trans e2'.symm, fun k hk => ?_⟩
  obtain ⟨x, hx, hl⟩ := e3 k hk
  obtain ⟨y, hy, hl'⟩ := e3' k hk
  simp only [along_t fresh K data ha] at hx
  rw [hl, hl', FirstGreatest.unique hx hy]

/-- **C41**, minima and their indices. -/
theorem C41_min_argmin (ha : a < 2) (hp : ProperRed .minArgmin (.t fresh K)) (hp' : ProperRed .minArgmin K)
    (h : redCall .minArgmin (.t fresh K) (nbatch (.t fresh K) + a) = some c)
    (h' : redCall .minArgmin K (nbatch K + (1 - a)) = some c') (hx : Runs c.f ex) (hx' : Runs c'.f ex')
    (hd : Domain .minArgmin (.t fresh K) data n m) (hd' : Domain .minArgmin K data m n) (P : PostNum EReal) (cast : Nat → EReal) :
    ∃ S S', getScheme (minArgMinRed cast ex.dim) .direct = some S ∧ getScheme (minArgMinRed cast ex'.dim) .direct = some S' ∧
      ∀ js i row row', js ≠ [] →
        OutRow .minArgmin (.t fresh K) Real.toEReal EReal.toReal c ex (minArgMinRed cast ex.dim) S data n m a js i row →
        OutRow .minArgmin K Real.toEReal EReal.toReal c' ex' (minArgMinRed cast ex'.dim) S' data m n (1 - a) js i row' →
        ∃ vals inds vals' inds',
          postprocess P (redOp .minArgmin) (optArg .minArgmin) (minArgMinRed cast ex.dim).dim row = some [vals, inds] ∧
          postprocess P (redOp .minArgmin) (optArg .minArgmin) (minArgMinRed cast ex'.dim).dim row' = some [vals', inds'] ∧
          vals.shape = vals'.shape ∧ inds.shape = inds'.shape ∧
          ∀ k < K.dim, vals.get k = vals'.get k ∧ inds.get k = inds'.get k := by
  obtain ⟨-, S, hS, h1⟩ := C62_min_argmin hp h hx hd P cast
  obtain ⟨-, S', hS', h2⟩ := C62_min_argmin hp' h' hx' hd' P cast
  refine ⟨S, S', hS, hS', fun js i row row' hne ho ho' => ?_⟩
  obtain ⟨vals, inds, e1, e2, e2b, e3⟩ := h1 js i row ho hne
  obtain ⟨vals', inds', e1', e2', e2b', e3'⟩ := h2 js i row' ho' hne
  refine ⟨vals, inds, vals', inds', e1, e1', e2.trans e2'.symm, e2b.trans e2b'.symm, fun k hk => ?_⟩
  obtain ⟨x, hx, hl, hi⟩ := e3 k hk
  obtain ⟨y, hy, hl', hi'⟩ := e3' k hk
  simp only [along_t fresh K data ha] at hx hl
  obtain rfl := FirstLeast.unique hx hy
  exact ⟨hl.trans hl'.symm, hi.trans hi'.symm⟩

/-- **C41**, maxima and their indices. -/
theorem C41_max_argmax (ha : a < 2) (hp : ProperRed .maxArgmax (.t fresh K)) (hp' : ProperRed .maxArgmax K)
    (h : redCall .maxArgmax (.t fresh K) (nbatch (.t fresh K) + a) = some c)
    (h' : redCall .maxArgmax K (nbatch K + (1 - a)) = some c') (hx : Runs c.f ex) (hx' : Runs c'.f ex')
    (hd : Domain .maxArgmax (.t fresh K) data n m) (hd' : Domain .maxArgmax K data m n) (P : PostNum EReal) (cast : Nat → EReal) :
    ∃ S S', getScheme (maxArgMaxRed cast ex.dim) .direct = some S ∧ getScheme (maxArgMaxRed cast ex'.dim) .direct = some S' ∧
      ∀ js i row row', js ≠ [] →
        OutRow .maxArgmax (.t fresh K) Real.toEReal EReal.toReal c ex (maxArgMaxRed cast ex.dim) S data n m a js i row →
        OutRow .maxArgmax K Real.toEReal EReal.toReal c' ex' (maxArgMaxRed cast ex'.dim) S' data m n (1 - a) js i row' →
        ∃ vals inds vals' inds',
          postprocess P (redOp .maxArgmax) (optArg .maxArgmax) (maxArgMaxRed cast ex.dim).dim row = some [vals, inds] ∧
          postprocess P (redOp .maxArgmax) (optArg .maxArgmax) (maxArgMaxRed cast ex'.dim).dim row' = some [vals', inds'] ∧
          vals.shape = vals'.shape ∧ inds.shape = inds'.shape ∧
          ∀ k < K.dim, vals.get k = vals'.get k ∧ inds.get k = inds'.get k := by
  obtain ⟨-, S, hS, h1⟩ := C62_max_argmax hp h hx hd P cast
  obtain ⟨-, S', hS', h2⟩ := C62_max_argmax hp' h' hx' hd' P cast
  refine ⟨S, S', hS, hS', fun js i row row' hne ho ho' => ?_⟩
  obtain ⟨vals, inds, e1, e2, e2b, e3⟩ := h1 js i row ho hne
  obtain ⟨vals', inds', e1', e2', e2b', e3'⟩ := h2 js i row' ho' hne
  refine ⟨vals, inds, vals', inds', e1, e1', e2.trans e2'.symm, e2b.trans e2b'.symm, fun k hk => ?_⟩
  obtain ⟨x, hx, hl, hi⟩ := e3 k hk
  obtain ⟨y, hy, hl', hi'⟩ := e3' k hk
  simp only [along_t fresh K data ha] at hx hl
  obtain rfl := FirstGreatest.unique hx hy
  exact ⟨hl.trans hl'.symm, hi.trans hi'.symm⟩

/-- **C41**, smallest values. -/
theorem C41_kmin {q : Nat} (ha : a < 2) (hp : ProperRed (.kmin q) (.t fresh K)) (hp' : ProperRed (.kmin q) K)
    (h : redCall (.kmin q) (.t fresh K) (nbatch (.t fresh K) + a) = some c)
    (h' : redCall (.kmin q) K (nbatch K + (1 - a)) = some c') (hx : Runs c.f ex) (hx' : Runs c'.f ex')
    (hd : Domain (.kmin q) (.t fresh K) data n m) (hd' : Domain (.kmin q) K data m n) (P : PostNum EReal) (cast : Nat → EReal)
    (sch : SumScheme) (hsch : sch ≠ .kahan) :
    ∃ S S', getScheme (kminRed cast ex.dim q) sch = some S ∧ getScheme (kminRed cast ex'.dim q) sch = some S' ∧
      ∀ js i row row', js.Pairwise (· < ·) →
        OutRow (.kmin q) (.t fresh K) Real.toEReal EReal.toReal c ex (kminRed cast ex.dim q) S data n m a js i row →
        OutRow (.kmin q) K Real.toEReal EReal.toReal c' ex' (kminRed cast ex'.dim q) S' data m n (1 - a) js i row' →
        ∃ arr arr', postprocess P (redOp (.kmin q)) (optArg (.kmin q)) (kminRed cast ex.dim q).dim row = some [arr] ∧
          postprocess P (redOp (.kmin q)) (optArg (.kmin q)) (kminRed cast ex'.dim q).dim row' = some [arr'] ∧
          arr.shape = arr'.shape ∧ ∀ k < K.dim, ∀ l < q, arr.get (l * K.dim + k) = arr'.get (l * K.dim + k) := by
  obtain ⟨-, S, hS, h1⟩ := C62_kmin hp h hx hd P cast sch hsch
  obtain ⟨-, S', hS', h2⟩ := C62_kmin hp' h' hx' hd' P cast sch hsch
  refine ⟨S, S', hS, hS', fun js i row row' hne ho ho' => ?_⟩
  obtain ⟨arr, e1, e2, e3⟩ := h1 js i row ho hne
  obtain ⟨arr', e1', e2', e3'⟩ := h2 js i row' ho' hne
  refine ⟨arr, arr', e1, e1', e2.trans e2'.symm, fun k hk l hl => ?_⟩
  obtain ⟨σ, hσ, hv⟩ := e3 k hk
  obtain ⟨τ, hτ, hv'⟩ := e3' k hk
  simp only [along_t fresh K data ha] at hσ
  obtain rfl := SortedBy.unique hσ hτ
  obtain ⟨a1, a2⟩ := hv l hl
  obtain ⟨b1, b2⟩ := hv' l hl
  have hdim : (PyE.t fresh K).dim = K.dim := rfl
  simp only [along_t fresh K data ha, hdim] at a1 a2
  by_cases hlen : l < σ.length
  · exact (a1 hlen).trans (b1 hlen).symm
  · exact (a2 (by omega)).trans (b2 (by omega)).symm

/-- **C41**, indices of the smallest values. -/
theorem C41_argkmin {q : Nat} (ha : a < 2) (hp : ProperRed (.argkmin q) (.t fresh K)) (hp' : ProperRed (.argkmin q) K)
    (h : redCall (.argkmin q) (.t fresh K) (nbatch (.t fresh K) + a) = some c)
    (h' : redCall (.argkmin q) K (nbatch K + (1 - a)) = some c') (hx : Runs c.f ex) (hx' : Runs c'.f ex')
    (hd : Domain (.argkmin q) (.t fresh K) data n m) (hd' : Domain (.argkmin q) K data m n) (P : PostNum EReal) (cast : Nat → EReal)
    (sch : SumScheme) (hsch : sch ≠ .kahan) :
    ∃ S S', getScheme (argKminRed cast ex.dim q) sch = some S ∧ getScheme (argKminRed cast ex'.dim q) sch = some S' ∧
      ∀ js i row row', js.Pairwise (· < ·) →
        OutRow (.argkmin q) (.t fresh K) Real.toEReal EReal.toReal c ex (argKminRed cast ex.dim q) S data n m a js i row →
        OutRow (.argkmin q) K Real.toEReal EReal.toReal c' ex' (argKminRed cast ex'.dim q) S' data m n (1 - a) js i row' →
        ∃ arr arr', postprocess P (redOp (.argkmin q)) (optArg (.argkmin q)) (argKminRed cast ex.dim q).dim row = some [arr] ∧
          postprocess P (redOp (.argkmin q)) (optArg (.argkmin q)) (argKminRed cast ex'.dim q).dim row' = some [arr'] ∧
          arr.shape = arr'.shape ∧ ∀ k < K.dim, ∀ l < q, arr.get (l * K.dim + k) = arr'.get (l * K.dim + k) := by
  obtain ⟨-, S, hS, h1⟩ := C62_argkmin hp h hx hd P cast sch hsch
  obtain ⟨-, S', hS', h2⟩ := C62_argkmin hp' h' hx' hd' P cast sch hsch
  refine ⟨S, S', hS, hS', fun js i row row' hne ho ho' => ?_⟩
  obtain ⟨arr, e1, e2, e3⟩ := h1 js i row ho hne
  obtain ⟨arr', e1', e2', e3'⟩ := h2 js i row' ho' hne
  refine ⟨arr, arr', e1, e1', e2.trans e2'.symm, fun k hk l hl => ?_⟩
  obtain ⟨σ, hσ, hv⟩ := e3 k hk
  obtain ⟨τ, hτ, hv'⟩ := e3' k hk
  simp only [along_t fresh K data ha] at hσ
  obtain rfl := SortedBy.unique hσ hτ
  obtain ⟨a1, a2⟩ := hv l hl
  obtain ⟨b1, b2⟩ := hv' l hl
  have hdim : (PyE.t fresh K).dim = K.dim := rfl
  simp only [along_t fresh K data ha, hdim] at a1 a2
  by_cases hlen : l < σ.length
  · exact (a1 hlen).trans (b1 hlen).symm
  · exact (a2 (by omega)).trans (b2 (by omega)).symm

/-- **C41**, smallest values and their indices. -/
theorem C41_kmin_argkmin {q : Nat} (ha : a < 2) (hp : ProperRed (.kminArgkmin q) (.t fresh K)) (hp' : ProperRed (.kminArgkmin q) K)
    (h : redCall (.kminArgkmin q) (.t fresh K) (nbatch (.t fresh K) + a) = some c)
    (h' : redCall (.kminArgkmin q) K (nbatch K + (1 - a)) = some c') (hx : Runs c.f ex) (hx' : Runs c'.f ex')
    (hd : Domain (.kminArgkmin q) (.t fresh K) data n m) (hd' : Domain (.kminArgkmin q) K data m n) (P : PostNum EReal) (cast : Nat → EReal)
    (sch : SumScheme) (hsch : sch ≠ .kahan) :
    ∃ S S', getScheme (kminArgKminRed cast ex.dim q) sch = some S ∧ getScheme (kminArgKminRed cast ex'.dim q) sch = some S' ∧
      ∀ js i row row', js.Pairwise (· < ·) →
        OutRow (.kminArgkmin q) (.t fresh K) Real.toEReal EReal.toReal c ex (kminArgKminRed cast ex.dim q) S data n m a js i row →
        OutRow (.kminArgkmin q) K Real.toEReal EReal.toReal c' ex' (kminArgKminRed cast ex'.dim q) S' data m n (1 - a) js i row' →
        ∃ vals inds vals' inds',
          postprocess P (redOp (.kminArgkmin q)) (optArg (.kminArgkmin q)) (kminArgKminRed cast ex.dim q).dim row = some [vals, inds] ∧
          postprocess P (redOp (.kminArgkmin q)) (optArg (.kminArgkmin q)) (kminArgKminRed cast ex'.dim q).dim row' = some [vals', inds'] ∧
          vals.shape = vals'.shape ∧ inds.shape = inds'.shape ∧
          ∀ k < K.dim, ∀ l < q, vals.get (l * K.dim + k) = vals'.get (l * K.dim + k) ∧ inds.get (l * K.dim + k) = inds'.get (l * K.dim + k) := by
  obtain ⟨-, S, hS, h1⟩ := C62_kmin_argkmin hp h hx hd P cast sch hsch
  obtain ⟨-, S', hS', h2⟩ := C62_kmin_argkmin hp' h' hx' hd' P cast sch hsch
  refine ⟨S, S', hS, hS', fun js i row row' hne ho ho' => ?_⟩
  obtain ⟨vals, inds, e1, e2, e2b, e3⟩ := h1 js i row ho hne
  obtain ⟨vals', inds', e1', e2', e2b', e3'⟩ := h2 js i row' ho' hne
  refine ⟨vals, inds, vals', inds', e1, e1', e2.trans e2'.symm, e2b.trans e2b'.symm, fun k hk l hl => ?_⟩
  obtain ⟨σ, hσ, hv⟩ := e3 k hk
  obtain ⟨τ, hτ, hv'⟩ := e3' k hk
  simp only [along_t fresh K data ha] at hσ
  obtain rfl := SortedBy.unique hσ hτ
  obtain ⟨a1, a2⟩ := hv l hl
  obtain ⟨b1, b2⟩ := hv' l hl
  have hdim : (PyE.t fresh K).dim = K.dim := rfl
  simp only [along_t fresh K data ha, hdim] at a1 a2
  by_cases hlen : l < σ.length
  · exact ⟨(a1 hlen).1.trans (b1 hlen).1.symm, (a1 hlen).2.trans (b1 hlen).2.symm⟩
  · exact ⟨(a2 (by omega)).1.trans (b2 (by omega)).1.symm, (a2 (by omega)).2.trans (b2 (by omega)).2.symm⟩

/-- **C41**, log-sum-exp with weights. -/
theorem C41_logsumexp_weight {w : PyE} {fresh' : Nat → Nat} (ha : a < 2) (hp : ProperRed (.logsumexpW (.t fresh' w)) (.t fresh K)) (hp' : ProperRed (.logsumexpW w) K)
    (h : redCall (.logsumexpW (.t fresh' w)) (.t fresh K) (nbatch (.t fresh K) + a) = some c)
    (h' : redCall (.logsumexpW w) K (nbatch K + (1 - a)) = some c') (hx : Runs c.f ex) (hx' : Runs c'.f ex')
    (hd : Domain (.logsumexpW (.t fresh' w)) (.t fresh K) data n m) (hd' : Domain (.logsumexpW w) K data m n) (g : ℝ → XR) (long : XR → XR)
    (sch : SumScheme) (hsch : sch ≠ .kahan) :
    ∃ S, getScheme (@lseRed XR (xrNum g) w.dim) sch = some S ∧ ∀ js i row row', js ≠ [] →
        OutRow (.logsumexpW (.t fresh' w)) (.t fresh K) XR.fin XR.val c ex (@lseRed XR (xrNum g) w.dim) S data n m a js i row →
        OutRow (.logsumexpW w) K XR.fin XR.val c' ex' (@lseRed XR (xrNum g) w.dim) S data m n (1 - a) js i row' →
        ∃ arr arr',
          postprocess (xrPost long) (redOp (.logsumexpW (.t fresh' w))) (optArg (.logsumexpW (.t fresh' w))) (@lseRed XR (xrNum g) w.dim).dim row = some [arr] ∧
          postprocess (xrPost long) (redOp (.logsumexpW w)) (optArg (.logsumexpW w)) (@lseRed XR (xrNum g) w.dim).dim row' = some [arr'] ∧
          arr.shape = arr'.shape ∧ ∀ k < w.dim, arr.get k = arr'.get k := by
  obtain ⟨-, S, hS, h1⟩ := C62_logsumexp_weight hp h hx hd g long sch hsch
  obtain ⟨-, S', hS', h2⟩ := C62_logsumexp_weight hp' h' hx' hd' g long sch hsch
  obtain rfl : S = S' := Option.some.inj (hS.symm.trans hS')
  refine ⟨S, hS, fun js i row row' hne ho ho' => ?_⟩
  obtain ⟨arr, e1, e2, e3⟩ := h1 js i row ho hne
  obtain ⟨arr', e1', e2', e3'⟩ := h2 js i row' ho' hne
  refine ⟨arr, arr', e1, e1', e2.trans e2'.symm, fun k hk => ?_⟩
  rw [e3 k hk, e3' k hk]
  simp only [along_t fresh K data ha, along_t fresh' w data ha]

/-- **C41**, softmax-weighted sums. -/
theorem C41_sumsoftmaxweight {w : PyE} {fresh' : Nat → Nat} (ha : a < 2) (hp : ProperRed (.sumsoftmaxweight (.t fresh' w)) (.t fresh K)) (hp' : ProperRed (.sumsoftmaxweight w) K)
    (h : redCall (.sumsoftmaxweight (.t fresh' w)) (.t fresh K) (nbatch (.t fresh K) + a) = some c)
    (h' : redCall (.sumsoftmaxweight w) K (nbatch K + (1 - a)) = some c') (hx : Runs c.f ex) (hx' : Runs c'.f ex')
    (hd : Domain (.sumsoftmaxweight (.t fresh' w)) (.t fresh K) data n m) (hd' : Domain (.sumsoftmaxweight w) K data m n) (g : ℝ → XR) (long : XR → XR)
    (sch : SumScheme) (hsch : sch ≠ .kahan) :
    ∃ S, getScheme (@lseRed XR (xrNum g) (1 + w.dim)) sch = some S ∧ ∀ js i row row', js ≠ [] →
        OutRow (.sumsoftmaxweight (.t fresh' w)) (.t fresh K) XR.fin XR.val c ex (@lseRed XR (xrNum g) (1 + w.dim)) S data n m a js i row →
        OutRow (.sumsoftmaxweight w) K XR.fin XR.val c' ex' (@lseRed XR (xrNum g) (1 + w.dim)) S data m n (1 - a) js i row' →
        ∃ arr arr',
          postprocess (xrPost long) (redOp (.sumsoftmaxweight (.t fresh' w))) (optArg (.sumsoftmaxweight (.t fresh' w))) (@lseRed XR (xrNum g) (1 + w.dim)).dim row = some [arr] ∧
          postprocess (xrPost long) (redOp (.sumsoftmaxweight w)) (optArg (.sumsoftmaxweight w)) (@lseRed XR (xrNum g) (1 + w.dim)).dim row' = some [arr'] ∧
          arr.shape = arr'.shape ∧ ∀ k < w.dim, arr.get k = arr'.get k := by
  obtain ⟨-, S, hS, h1⟩ := C62_sumsoftmaxweight hp h hx hd g long sch hsch
  obtain ⟨-, S', hS', h2⟩ := C62_sumsoftmaxweight hp' h' hx' hd' g long sch hsch
  obtain rfl : S = S' := Option.some.inj (hS.symm.trans hS')
  refine ⟨S, hS, fun js i row row' hne ho ho' => ?_⟩
  obtain ⟨arr, e1, e2, e3⟩ := h1 js i row ho hne
  obtain ⟨arr', e1', e2', e3'⟩ := h2 js i row' ho' hne
  refine ⟨arr, arr', e1, e1', e2.trans e2'.symm, fun k hk => ?_⟩
  rw [e3 k hk, e3' k hk]
  simp only [along_t fresh K data ha, along_t fresh' w data ha]

/-- Decidable form of the condition on the identities of the new views. -/
def freshOk (fresh : Nat → Nat) (p : PyE) : Bool :=
  match run p with
  | some (.lazy e) =>
    match eval e with
    | some L => (List.range L.tensors.length).all (fun k => L.tensors.all (fun a => fresh k ≠ a.id) &&
        (List.range L.tensors.length).all fun k' => fresh k ≠ fresh k' || k = k') &&
          L.tensors.all fun a => e.tree.symbs.all fun s => s ≠ a.id
    | none => true
  | _ => true

theorem proper_t {p : PyE} (hp : Proper p) {fresh : Nat → Nat} (h : freshOk fresh p = true)
    (hi : idsOk (.t fresh p) = true) : Proper (.t fresh p) where
  pos := hp.pos
  zero := hp.zero
  args := hp.args
  fresh := ⟨hp.fresh, fun e he => by
    refine ⟨(good_of_run he hp.pos hp.zero hp.args hp.fresh).1.ok, fun L hL => ⟨(hp.ids e L he hL).1, ?_⟩⟩
    simp only [freshOk, he, hL, Bool.and_eq_true, List.all_eq_true, List.mem_range, Bool.or_eq_true,
      decide_eq_true_eq] at h
    exact ⟨fun k hk a ha => (h.1 k hk).1 a ha, fun k hk k' hk' e => ((h.1 k hk).2 k' hk').resolve_left fun x => x e,
      fun a ha s hs => h.2 a ha s hs⟩⟩
  ids := ids_of hi

/-- The hypotheses are met by `K.t()` and `K`, for `K = -((x_i - y_j)**2).sum(-1)` with 5 rows and 7 columns. -/
example (data : Data) : ProperRed .argmin (.t (· + 2000) exScore) ∧ ProperRed .argmin exScore ∧
    (∃ c ex, redCall .argmin (.t (· + 2000) exScore) (nbatch (.t (· + 2000) exScore) + 0) = some c ∧ Runs c.f ex) ∧
    (∃ c ex, redCall .argmin exScore (nbatch exScore + (1 - 0)) = some c ∧ Runs c.f ex) ∧
    Domain .argmin (.t (· + 2000) exScore) data 7 5 ∧ Domain .argmin exScore data 5 7 := by
  refine ⟨⟨proper_t exScore_proper (by decide +kernel) (by decide +kernel), (fun w h => by cases h),
      (fun w e e' L W h => by cases h)⟩,
    ⟨exScore_proper, (fun w h => by cases h), (fun w e e' L W h => by cases h)⟩,
    ⟨⟨.argMin, exScoreT.rename Spec.swapIJ, 1,
      [⟨2000, 0, [5, 3], false, 1⟩, ⟨2001, 1, [7, 3], false, 0⟩], 0⟩, _, by decide +kernel, 20, _, rfl, .inl rfl⟩,
    ⟨⟨.argMin, exScoreT, 0, [⟨1000, 0, [5, 3], false, 0⟩, ⟨1001, 1, [7, 3], false, 1⟩], 0⟩, _, by decide +kernel, 20, _,
      rfl, .inl rfl⟩, ?_, ?_⟩
  · exact ⟨by simp [exScore, PyE.Holds], fun i _ j _ => by simp [exScore, PyE.Def, Spec.PyM1.Def, Spec.PyOp.Def],
      fun w h => by cases h⟩
  · exact ⟨by simp [exScore, PyE.Holds], fun i _ j _ => by simp [exScore, PyE.Def, Spec.PyM1.Def, Spec.PyOp.Def],
      fun w h => by cases h⟩

end Verif.Lazy
