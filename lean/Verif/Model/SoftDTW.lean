import Verif.Model.FormulaCode

/-!
# Soft-DTW

Model of `formulas/maths/SoftDTW_SqDist.py`: the operation, the operation that computes its gradients, and `DiffT`.

Simplifications: numbers are real numbers.  The functions of the C library are parameters (`CMath`), and so is `fmin`, the
function `fminf`: in double precision it rounds its arguments.
-/

namespace Verif.SoftDTW

section
variable (M : CMath) (fmin : ℝ → ℝ → ℝ)

/-- `__init__` of both operations: the dimension of `gamma` must be 1. `SoftDTW_SqDist.py:22-30,101-110`. -/
def init (dim dg : Nat) : Option Nat := if dg ≠ 1 then none else some dim

/-- `d = x[i] - y[j]`, e.g. `SoftDTW_SqDist.py:41,132`. -/
def diff (x y : CArr) (i j : Nat) : Except CErr ℝ := do
  return (← CArr.get x i) - (← CArr.get y j)

/-- `rij = x[i] - y[j]; rij *= rij`, e.g. `SoftDTW_SqDist.py:41-42`. -/
def sq (x y : CArr) (i j : Nat) : Except CErr ℝ := do
  let d ← diff x y i j
  return d * d

/-- `min - gamma[0] * log(exp((min-a)/gamma[0]) + exp((min-b)/gamma[0]) + exp((min-c)/gamma[0]))`, with
`min = MIN3(a,c,b)`. `SoftDTW_SqDist.py:36-37,72-73,150-151`. -/
def softmin3 (γ a b c : ℝ) : ℝ :=
  let min := fmin (fmin a c) b
  min - γ * M.log (M.exp (M.div (min - a) γ) + M.exp (M.div (min - b) γ) + M.exp (M.div (min - c) γ))

/-- The local variables `rjm1`, `rim1j` and `rij`. `SoftDTW_SqDist.py:39`. -/
structure St where
  rjm1 : CArr
  rim1j : ℝ
  rij : ℝ

/-- The body of the first loop. `SoftDTW_SqDist.py:47-54`. -/
def firstStep (x y : CArr) (i : Nat) (s : St) : Except CErr St := do
  let rij := (← sq x y i 0) + s.rim1j
  return ⟨← CArr.put s.rjm1 (i - 1 : Nat) s.rim1j, rij, rij⟩

/-- The code for `j = 0`. `SoftDTW_SqDist.py:39-55`. -/
def first (x y : CArr) (n : Nat) (junk : CArr) : Except CErr St := do
  let rij ← sq x y 0 0
  let s ← loop (n - 1) (fun i s => firstStep x y (i + 1) s) ⟨junk, rij, rij⟩
  return { s with rjm1 := ← CArr.put s.rjm1 (n - 1 : Nat) s.rij }

/-- The body of the inner loop. `SoftDTW_SqDist.py:67-76`. -/
def nextStep (x y : CArr) (γ : ℝ) (j i : Nat) (s : St) : Except CErr St := do
  let d ← sq x y i j
  let a ← CArr.get s.rjm1 (i - 1 : Nat)
  let c ← CArr.get s.rjm1 i
  let rij := d + softmin3 M fmin γ a s.rim1j c
  return ⟨← CArr.put s.rjm1 (i - 1 : Nat) s.rim1j, rij, rij⟩

/-- The body of the outer loop. `SoftDTW_SqDist.py:58-78`. -/
def next (x y : CArr) (γ : ℝ) (n j : Nat) (s : St) : Except CErr St := do
  let rij := (← sq x y 0 j) + (← CArr.get s.rjm1 0)
  let s ← loop (n - 1) (fun i s => nextStep M fmin x y γ j (i + 1) s) ⟨s.rjm1, rij, rij⟩
  return { s with rjm1 := ← CArr.put s.rjm1 (n - 1 : Nat) s.rij }

/-- `SoftDTW_SqDist.Op`; `junk` is the initial content of `rjm1`. `SoftDTW_SqDist.py:32-83`. -/
def op (n m : Nat) (junk out x y gamma : CArr) : Except CErr CArr := do
  let s ← first x y n junk
  let γ ← CArr.get gamma 0
  let s ← loop (m - 1) (fun j s => next M fmin x y γ n (j + 1) s) s
  CArr.put out 0 s.rij

/-! ## Gradients -/

/-- The loop for `j = 0` of the forward pass, on `r`. `SoftDTW_SqDist.py:125-135`. -/
def fwdFirst (x y : CArr) (n : Nat) (r : CArr) : Except CErr CArr := do
  let r ← CArr.put r 0 (← sq x y 0 0)
  loop (n - 1) (fun i r => do CArr.put r (i + 1 : Nat) ((← sq x y (i + 1) 0) + (← CArr.get r i))) r

/-- The body of the inner loop of the forward pass. `SoftDTW_SqDist.py:145-152`. -/
def fwdStep (x y : CArr) (γ : ℝ) (n j i : Nat) (r : CArr) : Except CErr CArr := do
  let r ← CArr.put r (j * n + i : Nat) (← sq x y i j)
  let a ← CArr.get r ((j - 1) * n + i - 1 : Nat)
  let c ← CArr.get r ((j - 1) * n + i : Nat)
  let b ← CArr.get r (j * n + i - 1 : Nat)
  CArr.put r (j * n + i : Nat) ((← CArr.get r (j * n + i : Nat)) + softmin3 M fmin γ a b c)

/-- The body of the outer loop of the forward pass. `SoftDTW_SqDist.py:138-153`. -/
def fwdNext (x y : CArr) (γ : ℝ) (n j : Nat) (r : CArr) : Except CErr CArr := do
  let r ← CArr.put r (j * n : Nat) ((← sq x y 0 j) + (← CArr.get r ((j - 1) * n : Nat)))
  loop (n - 1) (fun i r => fwdStep M fmin x y γ n j (i + 1) r) r

/-- The forward pass. `SoftDTW_SqDist.py:119-153`. -/
def fwd (x y : CArr) (γ : ℝ) (n m : Nat) (r : CArr) : Except CErr CArr := do
  let r ← fwdFirst x y n r
  loop (m - 1) (fun j r => fwdNext M fmin x y γ n (j + 1) r) r

/-- The local variables of the backward pass, and `out`: `gradx` is `out` and `grady` is `out + n`.
`SoftDTW_SqDist.py:119-121,157`. -/
structure Bst where
  ejp1 : CArr
  eip1j : ℝ
  eij : ℝ
  d : ℝ
  out : CArr

/-- `out[k] += v`. `SoftDTW_SqDist.py:176,189,205-206`. -/
def addTo (out : CArr) (k : Nat) (v : ℝ) : Except CErr CArr := do
  CArr.put out k ((← CArr.get out k) + v)

/-- `exp((r[p] - r[q] - d*d) / gamma[0])`, e.g. `SoftDTW_SqDist.py:170`. -/
def expo (γ : ℝ) (r : CArr) (p q : Nat) (d : ℝ) : Except CErr ℝ := do
  return M.exp (M.div ((← CArr.get r p) - (← CArr.get r q) - d * d) γ)

/-- The body of the loop for `j = m-1`. `SoftDTW_SqDist.py:168-177`. -/
def lastStep (x y : CArr) (γ : ℝ) (n m : Nat) (r : CArr) (i : Nat) (s : Bst) : Except CErr Bst := do
  let a ← expo M γ r ((m - 1) * n + i + 1) ((m - 1) * n + i) s.d
  let eij := a * s.eip1j
  let ejp1 ← CArr.put s.ejp1 (i + 1 : Nat) s.eip1j
  let d ← diff x y i (m - 1)
  let out ← CArr.put s.out i (2 * d * eij)
  let out ← addTo out (n + (m - 1)) (-(2 * d * eij))
  return ⟨ejp1, eij, eij, d, out⟩

/-- The code for `j = m-1`. `SoftDTW_SqDist.py:157-178`. -/
def last (x y : CArr) (γ : ℝ) (n m : Nat) (r junk out : CArr) : Except CErr Bst := do
  let eij : ℝ := 1
  let d ← diff x y (n - 1) (m - 1)
  let out ← CArr.put out (n - 1 : Nat) (2 * d * eij)
  let out ← CArr.put out (n + (m - 1) : Nat) (-2 * d * eij)
  let s ← loop (n - 1) (fun k s => lastStep M x y γ n m r (n - 2 - k) s) ⟨junk, eij, eij, d, out⟩
  return { s with ejp1 := ← CArr.put s.ejp1 0 s.eij }

/-- The body of the inner loop of the backward pass. `SoftDTW_SqDist.py:193-207`. -/
def prevStep (x y : CArr) (γ : ℝ) (n : Nat) (r : CArr) (j i : Nat) (s : Bst) : Except CErr Bst := do
  let a ← expo M γ r (j * n + i + 1) (j * n + i) s.d
  let b ← expo M γ r ((j + 1) * n + i) (j * n + i) (← diff x y i (j + 1))
  let c ← expo M γ r ((j + 1) * n + i + 1) (j * n + i) (← diff x y (i + 1) (j + 1))
  let eij := a * s.eip1j + b * (← CArr.get s.ejp1 i) + c * (← CArr.get s.ejp1 (i + 1 : Nat))
  let ejp1 ← CArr.put s.ejp1 (i + 1 : Nat) s.eip1j
  let d ← diff x y i j
  let out ← addTo s.out i (2 * d * eij)
  let out ← addTo out (n + j) (-(2 * d * eij))
  return ⟨ejp1, eij, eij, d, out⟩

/-- The body of the outer loop of the backward pass. `SoftDTW_SqDist.py:181-209`. -/
def prev (x y : CArr) (γ : ℝ) (n : Nat) (r : CArr) (j : Nat) (s : Bst) : Except CErr Bst := do
  let b ← expo M γ r ((j + 1) * n + (n - 1)) (j * n + (n - 1)) (← diff x y (n - 1) (j + 1))
  let eij := b * (← CArr.get s.ejp1 (n - 1 : Nat))
  let d ← diff x y (n - 1) j
  let out ← addTo s.out (n - 1) (2 * d * eij)
  let out ← CArr.put out (n + j : Nat) (-2 * d * eij)
  let s ← loop (n - 1) (fun k s => prevStep M x y γ n r j (n - 2 - k) s) ⟨s.ejp1, eij, eij, d, out⟩
  return { s with ejp1 := ← CArr.put s.ejp1 0 s.eij }

/-- `GradSoftDTW_SqDist.Op`; `r` and `junk` are the initial contents of `r` and of `ejp1`.
`SoftDTW_SqDist.py:112-212`. -/
def gradOp (n m : Nat) (r junk out x y gamma : CArr) : Except CErr CArr := do
  let γ ← CArr.get gamma 0
  let r ← fwd M fmin x y γ n m r
  let s ← last M x y γ n m r junk out
  return (← loop (m - 1) (fun k s => prev M x y γ n r (m - 2 - k) s) s).out

/-- The gradients given to `x.DiffT` and `y.DiffT`: `Extract(grad * gradin, 0, n)` and `Extract(grad * gradin, n, m)`, with
`grad` the result of `GradSoftDTW_SqDist` and `gradin` of dimension 1.  An error (`none`) if `v` is in `gamma.Vars_`.
`SoftDTW_SqDist.py:85-95`. -/
def diffT (inGamma : Bool) (n m : Nat) (grad : CArr) (gradin : ℝ) : Option (CArr × CArr) :=
  if inGamma then none else
  let g := grad.map (· * gradin)
  some (g.take n, (g.drop n).take m)

end

end Verif.SoftDTW
