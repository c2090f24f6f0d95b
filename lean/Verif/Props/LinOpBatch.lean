import Verif.Props.LinOpSizes
import Verif.Props.MethodsBatch

/-!
# C83 from beginning to end, with batch dimensions
-/

namespace Verif.Lazy

open Spec (PyE PyRed rowsOut rowsRed batchOf ravel kernelMatrix arrayMatrix)
open Matrix

variable {K : PyE} {oid src m n d : Nat} {B vb batch shape : List Nat} {sh : Nat → List Nat} {data : Data}

/-- **C83**, from beginning to end, with batch dimensions: `K.matvec(v)` raises no exception and ends, and for each batch its output
is `A v`, where `A` is the matrix of the numbers `K(i, j)` and `v` the block of the array, both for this batch. For `K.rmatvec`, this
applies to `K.T`.

The arrays and the formula that is run are supposed to be as in C70. -/
theorem C83_batch_total (hB : 0 ∉ B) (hv : shape = [n] ∧ d = 1 ∧ vb = [] ∨ shape = vb ++ [n, d])
    (hvb : Spec.broadcast vb B = some B) (hp : ProperRed .sum (matProg K oid src shape)) (hl : K.IsLazy) (hK : K.dim = 1)
    (h : K.Fits B m n) (hf : K.NoFraction) (hd : d ≤ 100) (hm : 0 < m) (hn : 0 < n)
    (hsz : Sized .sum (matProg K oid src shape) batch m n) (hne : batch ≠ []) (hpos : 0 ∉ batch)
    (hsh : (matProg K oid src shape).Shapes sh) (hz : ∀ src, 0 ∉ sh src)
    (hdom : ∀ idx : Nat → Nat, (∀ b < batch.length, idx b < batch.getD b 0) → K.Holds (batchOf batch.length sh idx data) ∧
      ∀ i < m, ∀ j < n, K.Def (batchOf batch.length sh idx data) i j) (P : PostNum ℝ) (sch : SumScheme) :
    ∃ c ex S, matvec K oid src shape = some c ∧ Runs c.f ex ∧ getScheme (sumRed (V := ℝ) ex.dim) sch = some S ∧
      ((∀ x ∈ c.vars, x.shape.dropLast.prod < 2 ^ 31) → (∃ v ∈ ex.inputs, v.cat < 2) →
        (∀ b < batch.length, batch.getD b 0 = 1 ∨ ∃ v ∈ ex.inputs,
          ((c.vars.map fun x => x.shape).getD v.ind []).getD b 0 = batch.getD b 0) →
        ∀ M : CMath, M.Exact → ∀ (junk : Expr → Nat → ℝ) (dimout rows : Nat),
        ∃ Q, rangeCall (ex.call id id M junk c.cat.toNat m n (given data c.srcs)).ev ex.inputs c.cat.toNat
            (given data c.srcs) (c.vars.map fun x => x.shape) m n dimout rows none = some Q ∧
          ∀ out, (∃ y, RExec (sumRed ex.dim) S Q out y) ∧ ∀ y, RExec (sumRed ex.dim) S Q out y →
            ∀ idx : Nat → Nat, (∀ b < batch.length, idx b < batch.getD b 0) →
              Gives P ex.dim (fun i : Fin m => y.shift ((ravel batch.length (fun b => batch.getD b 0) idx * m + i) * ex.dim))
                (kernelMatrix K (batchOf batch.length sh idx data) m n *
                  arrayMatrix (batchOf batch.length sh idx data) src n d)) := by
  have h0 : ∀ b < batch.length, (fun _ => 0 : Nat → Nat) b < batch.getD b 0 := fun b hb => by
    rw [List.getD_eq_getElem?_getD, List.getElem?_eq_getElem hb]
    exact Nat.pos_of_ne_zero fun e => hpos (e ▸ List.getElem_mem hb)
  have hcol : Columns shape n d := hv.imp (fun e => ⟨e.1, e.2.1⟩) fun e => ⟨vb, e⟩
  obtain ⟨c, ex, hc, hx, hred⟩ := matmul_batch hB (.inl rfl) hv hvb hp hl hK h hf hd (hdom _ h0).1 ((hdom _ h0).2 0 hm 0 hn)
  obtain ⟨S, hS, -⟩ := matvec_rows (m := m) (n := n) hcol hp hc hx (hdom _ h0).1 (hdom _ h0).2 P sch
  refine ⟨c, ex, S, hc, hx, hS, fun hi hax hat M hM junk dimout rows => ?_⟩
  have hB' : BatchCall .sum (matProg K oid src shape) c ex sh batch m n data :=
    ⟨hne, hsz, hsh, (fun w h => by cases h), hz, hi, hax, hat, fun idx hidx =>
      ⟨⟨(hdom idx hidx).1, trivial⟩, fun i hi j hj => ⟨(hdom idx hidx).2 i hi j hj, trivial, trivial⟩, fun w h => by cases h⟩⟩
  obtain ⟨Q, hQ⟩ := C70_call (a := 1) hp hred hx hB' id id M junk dimout rows
  refine ⟨Q, hQ, fun out => ⟨rexec_exists_gpu _ _ _ out, fun y hy idx hidx => ?_⟩⟩
  obtain ⟨S', hS', hall⟩ := matvec_rows (m := m) (n := n) hcol hp hc hx (hdom idx hidx).1 (hdom idx hidx).2 P sch
  cases hS.symm.trans hS'
  have := hall (fun _ => List.range n) _ (fun i j hj => List.mem_range.1 hj)
    (fun i => .batch (a := 1) hB' hM hQ hy hidx i.2)
  have hA : (of fun (i : Fin m) (j : Fin n) => ((List.range n).count (j : Nat) : ℝ) *
      kernelMatrix K (batchOf batch.length sh idx data) m n i j) = kernelMatrix K (batchOf batch.length sh idx data) m n := by
    ext i j
    simp [List.count_eq_one_of_mem List.nodup_range (List.mem_range.2 j.2)]
  rw [hA] at this
  exact this

/-! ## The hypotheses can be met -/

/-- The product of `exK4` and an array with 4 batches of 7 rows and 2 columns. -/
abbrev exP4 : PyE := matProg exK4 1004 3 [4, 7, 2]

/-- The shapes of the arrays. -/
def exSh4 (src : Nat) : List Nat := if src = 0 then [4, 5, 1, 3] else if src = 1 then [1, 7, 3] else [4, 1, 7, 2]

/-- The routine that is called. -/
def exC4 : RedCall :=
  ⟨.sum, .bin .mul (.un .sum (.un .square (.bin .sub (.var 0 3 0) (.var 1 3 1)))) (.var 2 2 1), 0,
    [⟨1000, 0, [4, 5, 3], false, 0⟩, ⟨1001, 1, [1, 7, 3], false, 1⟩, ⟨1004, 3, [4, 7, 2], false, 1⟩], 1⟩

/-- The formula that is run. -/
def exE4 : Expr := .bin .mul (.un .sum (.un .square (.bin .sub (.var 0 3 0) (.var 1 3 1)))) (.var 2 2 1)

/-- The hypotheses on batches, and the conditions on the routine; the other hypotheses are those of the example of
`C84_accepts_batch`. -/
example (data : Data) : Sized .sum exP4 [4] 5 7 ∧ exP4.Shapes exSh4 ∧ (∀ src, 0 ∉ exSh4 src) ∧
    (∀ idx, exK4.Holds (batchOf 1 exSh4 idx data) ∧ ∀ i < 5, ∀ j < 7, exK4.Def (batchOf 1 exSh4 idx data) i j) ∧
    matvec exK4 1004 3 [4, 7, 2] = some exC4 ∧ Runs exC4.f exE4 ∧
    (∀ x ∈ exC4.vars, x.shape.dropLast.prod < 2 ^ 31) ∧ (∃ v ∈ exE4.inputs, v.cat < 2) ∧
    ∀ b < [4].length, [4].getD b 0 = 1 ∨ ∃ v ∈ exE4.inputs,
      ((exC4.vars.map fun x => x.shape).getD v.ind []).getD b 0 = [4].getD b 0 := by
  refine ⟨?_, by simp [matProg, PyE.Shapes, exSh4, matDims], fun src => by unfold exSh4; split_ifs <;> simp,
    fun idx => ⟨by simp [PyE.Holds], fun i _ j _ => by simp [PyE.Def, Spec.PyM1.Def, Spec.PyOp.Def]⟩, by decide +kernel,
    ⟨20, exE4, by decide +kernel, .inl rfl⟩, by simp [exC4], ⟨⟨0, 3, 0⟩, by decide +kernel, by decide⟩, fun b hb => ?_⟩
  · obtain ⟨e, he⟩ : ∃ e, run exP4 = some (.lazy e) := ⟨_, rfl⟩
    obtain ⟨L, hL⟩ : ∃ L, eval e = some L := by
      cases he
      exact ⟨_, rfl⟩
    have h : ((run exP4).bind fun v => match v with | .lazy e => eval e | _ => none).map
        (fun L => (L.batchdims, L.ni, L.nj)) = some (some [4], some 5, some 7) := by decide +kernel
    rw [he] at h
    simp only [Option.bind_some, hL, Option.map_some, Option.some.injEq, Prod.mk.injEq] at h
    obtain ⟨h1, h2, h3⟩ := h
    refine ⟨e, L, none, L, he, hL, rfl, rfl, by rw [h1]; rfl, fun x hx => ?_, fun x hx => ?_⟩
    · rw [h2] at hx
      exact (Option.some.inj hx).symm
    · rw [h3] at hx
      exact (Option.some.inj hx).symm
  · obtain rfl : b = 0 := by simpa using hb
    exact .inr ⟨⟨0, 3, 0⟩, by decide +kernel, rfl⟩

end Verif.Lazy
