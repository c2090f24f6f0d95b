/-!
# Integers in binary floating point

Some indices and counts of pykeops are stored in floating point arrays.  Only conversions of
integers are modelled.
-/

namespace Verif

/-- Rounding of a natural number to `p` significant bits, to nearest, ties to even (IEEE 754; `p` is
11 for `float16`, 24 for `float32`, 53 for `float64`).  The exponent is not bounded.
Models the conversion of counts at `pykeops/torch/cluster/utils.py:96`. -/
def roundNat (p n : Nat) : Nat :=
  let u := 2 ^ (n.log2 + 1 - p)
  let q := n / u
  let r := n % u
  if 2 * r < u ∨ (2 * r = u ∧ q % 2 = 0) then q * u else (q + 1) * u

/-- `float32` value of an integer: `.float()`, `pykeops/torch/cluster/utils.py:96,220`. -/
def f32 (n : Nat) : Nat := roundNat 24 n

end Verif
