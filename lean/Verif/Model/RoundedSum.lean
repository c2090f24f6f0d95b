import Verif.Model.Reduction
import Verif.Model.Schedule

/-!
# Sums with rounded operations

The sum reduction of `Model/Reduction.lean`, where every addition and subtraction is followed by the rounding to the type
of its operands, and the accumulators may have another type than the data.
-/

namespace Verif.Rnd

variable {V : Type} [Zero V] [Add V] [Sub V]

/-- `Sum_Reduction.KahanScheme`: `xi[k] - tmp[k]` has the type of the data, the other operations have the type of the
accumulator, and `tmp` is converted to the type of the data. `rf` and `ra` are the roundings to these types.
`reductions/Sum_Reduction.py:31-40`, `reductions/sum_schemes.py:75-78`, `mapreduce/MapReduce.py:59,75`. -/
def sumKahan (rf ra : V → V) (d : Nat) (acc xi tmp : Mem V) : Mem V × Mem V :=
  forRange d (fun k (s : Mem V × Mem V) =>
    let a := rf (xi k - s.2 k)
    let b := ra (s.1 k + a)
    let tmp := s.2.set k (rf (ra (ra (b - s.1 k) - a)))
    let acc := s.1.set k b
    (acc, tmp)) (acc, tmp)

/-- `Sum_Reduction` for data of the type with rounding `rf` and accumulators of the type with rounding `ra`.
`ReducePairShort` acts on the accumulator in the scheme `direct_sum` and on the temporary accumulator, which has the type
of the data, in the scheme `block_sum` (`sum_schemes.py:40-41,44-47,58-60`). Conversions to a wider type are exact, and
converting a number to its own type does nothing; `FinalizeOutput` converts to the type of the data.
`reductions/Sum_Reduction.py:10-50`, `reductions/Reduction.py:22-40`, `utils/code_gen_utils.py:99-116`. -/
def sumRed (rf ra : V → V) (sch : SumScheme) (d : Nat) : Red V where
  dimF := d
  dimred := d
  dim := d
  init := fun acc => vectFill d acc 0
  short := fun acc xi _ => vectApply d (fun a x => (if sch = .block then rf else ra) (a + x)) acc xi
  pair := some (fun acc xi => vectApply d (fun a x => ra (a + x)) acc xi)
  kahan := some (fun tmp => vectFill d tmp 0, sumKahan rf ra d)
  fin := fun acc out => vectCopy d out (fun k => rf (acc k))

end Verif.Rnd
