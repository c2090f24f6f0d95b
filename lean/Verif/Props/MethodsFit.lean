import Verif.Props.MethodsRed
import Verif.Proofs.MethodsFit

/-!
# C60 and C62: programs whose sizes are compatible raise no exception
-/

namespace Verif.Lazy
open Alias (Str)
open Spec (LExpr PyE PyRed)
open Parse

/-- **C60**, existence: a program whose sizes are compatible builds a lazy tensor. Its last dimension is the one of the
documentation, it has `m` rows and `n` columns (1 if no array of the program has some), and its batch dimensions are
broadcast to `B`. -/
theorem C60_total {p : PyE} (hp : Proper p) (hl : p.IsLazy) {B : List Nat} (hB : 0 ∉ B) {m n : Nat} (h : p.Fits B m n) :
    ∃ e L, run p = some (.lazy e) ∧ eval e = some L ∧ ∃ b i j, L.shape = b ++ [i, j, p.dim] ∧
      Spec.broadcast b B = some B ∧ (i = 1 ∨ i = m) ∧ (j = 1 ∨ j = n) := by
  obtain ⟨v, hv, ⟨L, hL, hd, -, hs, -⟩, hlv⟩ := tot_of_fits hB h hp.pos hp.zero hp.args
  obtain ⟨e, rfl⟩ := hlv hl
  refine ⟨e, L, hv, hL, L.batchdims.getD [], L.ni.getD 1, L.nj.getD 1, ?_, subRev_broadcast hs.batch, ?_, ?_⟩
  · rw [LazyT.shape, hd]
  · rcases hs.ni with h | h <;> simp [h]
  · rcases hs.nj with h | h <;> simp [h]

/-- **C60**, existence: a reduction of a program whose sizes are compatible, without batch dimensions, calls the routine
with a formula that it can read. For sums the dimension is at most 100: for larger ones, see C42 and C62. -/
theorem C60_total_call {p : PyE} (hp : Proper p) (hl : p.IsLazy) {m n : Nat} (h : p.Fits [] m n) {redop : Str}
    (hn : IsName redop) (hs : redop = "Sum".toList → p.dim ≤ 100) (cat : Nat) :
    ∃ t srcs, callOf p redop cat = some (t, srcs) := by
  obtain ⟨v, hv, ⟨L, hL, hd, -, hsz, hr⟩, hlv⟩ := tot_of_fits (by simp) h hp.pos hp.zero hp.args
  obtain ⟨e, rfl⟩ := hlv hl
  refine C60_call hp hv hL ?_ hn (fun h => ?_) cat
  · have := hsz.batch.length
    simpa [LazyT.nbatchdims] using this
  · by_contra hc
    have := hr hc
    have := hs h
    omega

/-- **C62**, existence: a reduction of a program whose sizes are compatible, and compatible with those of the weight, calls
the routine, except for `K = 0` and for log-sum-exp or softmax of vectors. -/
theorem C62_total {r : PyRed} {p : PyE} (hp : ProperRed r p) (hl : p.IsLazy) {B : List Nat} (hB : 0 ∉ B) {m n : Nat}
    (h : p.Fits B m n) (hw : ∀ w, r.weight = some w → w.IsLazy ∧ w.Fits B m n) {a : Nat} (ha : a < 2)
    (hs : r = .sum → p.dim ≤ 100) (hK : ∀ K, r = .kmin K ∨ r = .argkmin K ∨ r = .kminArgkmin K → 0 < K)
    (hd : r = .logsumexp ∨ r.weight ≠ none → p.dim = 1) :
    ∃ c, redCall r p (nbatch p + a) = some c := by
  obtain ⟨v, hv, ⟨L, hL, -, -, hsz, hr⟩, hlv⟩ := tot_of_fits hB h hp.self.pos hp.self.zero hp.self.args
  obtain ⟨e, rfl⟩ := hlv hl
  have hnb : nbatch p = L.nbatchdims := by
    have hL : eval e = some L := hL
    rw [nbatch, hv]
    simp only [hL, Option.map_some, Option.getD_some]
  rw [hnb]
  refine C62_call hp hv hL ha (fun h => ?_) (fun w hrw => ?_) hK hd
  · have : recOf e = none := by
      by_contra hc
      have := hr hc
      have := hs h
      omega
    rw [shortcut, this]
  · obtain ⟨w1, w2, w3, -⟩ := hp.weight w hrw
    obtain ⟨u, hu, ⟨W, hW, -, -, hsz', -⟩, hlu⟩ := tot_of_fits hB (hw w hrw).2 w1 w2 w3
    obtain ⟨e', rfl⟩ := hlu (hw w hrw).1
    obtain ⟨R, hR, -⟩ := join_fits hB hsz hsz'
    exact ⟨e', W, R, hu, hW, hR⟩

/-- The theorem applies to a Gaussian kernel: `(-((x_i - y_j)**2).sum(-1) / 2.5).exp() * b_j`. -/
example : exGauss.Fits [] 5 7 ∧ exGauss.IsLazy ∧ exGauss.dim ≤ 100 := by
  refine ⟨?_, trivial, by decide⟩
  have h : ∀ d d' : Nat, d = 1 ∨ d' = 1 ∨ d = d' → Spec.Alike [d, d'] := fun d d' h => by
    refine ⟨if d = 1 then d' else d, fun c hc => ?_⟩
    simp only [List.mem_cons, List.not_mem_nil, or_false] at hc
    split_ifs <;> omega
  simp [exGauss, PyE.Fits, PyE.IsLazy, Spec.FitsShape, Spec.PyOp.Fits, PyE.dim, Spec.PyM1.dim, Spec.PyOp.dim,
    PyE.IsExponent, h]

/-- The theorem on reductions applies to a softmax with weights. -/
example : exScore.Fits [] 5 7 ∧ exScore.IsLazy ∧ exScore.dim = 1 ∧
    ∀ w, (PyRed.sumsoftmaxweight exVals).weight = some w → w.IsLazy ∧ w.Fits [] 5 7 := by
  refine ⟨?_, trivial, rfl, ?_⟩
  · have h : Spec.Alike [3, 3] := ⟨3, by simp⟩
    simp [exScore, PyE.Fits, PyE.IsLazy, Spec.FitsShape, Spec.PyOp.Fits, Spec.PyM2.Fits, PyE.dim, PyE.IsExponent, h]
  · rintro w ⟨⟩
    exact ⟨trivial, 2, rfl⟩

/-- It applies to points with batch dimensions. -/
example : (PyE.op .sub (.lazy 1000 0 [2, 1, 5, 1, 3] none) (.lazy 1001 1 [4, 1, 7, 3] none)).Fits [2, 4] 5 7 := by
  refine ⟨.inl trivial, by simp, .inr ⟨[2, 1], 5, 1, 3, rfl, by decide, .inl ⟨rfl, rfl⟩⟩,
    .inr ⟨[4], 1, 7, 3, rfl, by decide, .inr (.inl ⟨rfl, rfl⟩)⟩, 3, by simp [PyE.dim]⟩

end Verif.Lazy
