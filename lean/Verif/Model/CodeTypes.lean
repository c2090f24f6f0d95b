import Verif.Model.Options

/-!
# Types in the code of a reduction

Model of the generation of the code of a reduction, for the types of the variables: `c_variable` and `c_array`
(`utils/code_gen_utils.py`), the methods of the reductions (`formulas/reductions`), the summation schemes
(`sum_schemes.py`) and the classes of `mapreduce`, which put these pieces in a kernel.  A variable is its type, an array
is its type and its size, and a piece of code is the exception raised when it is written, or that it is refused by the
compiler (`Err.compile`).

Simplifications: indices of arrays are integer variables, for which no check fails; the code of the formula is not
considered, only the array `fout` that receives its value; the names of the variables are left out. An error of the
compiler comes after all the exceptions of Python, so that if there are several errors, the one given by the model may
not be the first one.
-/

namespace Verif.Types

/-- The types of the variables. `utils/code_gen_utils.py:54-65,278-290`. -/
inductive CT
  | float | double | half2 | float2 | long | bool
  deriving DecidableEq, Repr

/-- The exceptions: `KeOps_Error` (`utils/misc_utils.py:24-27`), a missing attribute, a wrong number of arguments, and
the errors of the compiler. -/
inductive Err
  | keops | attribute | type | compile
  deriving DecidableEq, Repr

abbrev M := Except Err

/-- `simple_dtypes`, `utils/code_gen_utils.py:281`; `int` is not distinguished from `signed long int`. -/
def CT.simple : CT → Bool
  | .float | .double | .long | .bool => true
  | .half2 | .float2 => false

/-- `cast_to(dtype, var)`. `utils/code_gen_utils.py:279-291`. -/
def castTo (dst src : CT) : M Unit :=
  if dst.simple ∧ src.simple then .ok ()
  else if dst = .half2 ∧ src = .float then .ok ()
  else if dst = .float2 ∧ src = .half2 then .ok ()
  else if dst = .half2 ∧ src = .float2 then .ok ()
  else .error .keops

/-- `var.assign(value)`. `utils/code_gen_utils.py:77-97`. -/
def assign (var value : CT) : M Unit :=
  if value ≠ var then
    if var = .float2 ∧ value = .float then .ok () else castTo var value
  else .ok ()

/-- `var.add_assign(value)`; CUDA has no operator on `float2`. `utils/code_gen_utils.py:99-116`. -/
def addAssign (var value : CT) : M Unit :=
  if value ≠ var then
    if var = .float2 ∧ value = .half2 then .ok () else castTo var value
  else if var = .float2 then .error .compile else .ok ()

/-- `a op b`: the type of the result, which is `res` if the caller gives it. CUDA has no operator on `float2`.
`utils/code_gen_utils.py:118-143`. -/
def binaryOp (a b : CT) (res : Option CT := none) : M CT :=
  if a ≠ b then .error .keops
  else if a = .float2 then .error .compile else .ok (res.getD a)

/-- `a = b` written as text: there is no conversion between `half2`, `float2` and numbers. Rules of C++ and CUDA, for
`mapreduce/gpu/GpuReduc2D.py:196` and `GpuReduc1D_finalchunks.py:195`. -/
def textAssign (a b : CT) : M Unit :=
  if a = b ∨ (a.simple ∧ b.simple) then .ok () else .error .compile

/-- `a += b` written as text. Rules of C++ and CUDA, for `mapreduce/gpu/GpuReduc1D_finalchunks.py:58,66`. -/
def textAddAssign (a b : CT) : M Unit :=
  if (a = b ∧ a ≠ .float2) ∨ (a.simple ∧ b.simple) then .ok () else .error .compile

/-- `c_array`. `utils/code_gen_utils.py:323-332`. -/
structure Arr where
  dt : CT
  dim : Nat
  deriving DecidableEq, Repr

/-- `a.split(m, n)`. `utils/code_gen_utils.py:346-354`. -/
def Arr.split (a : Arr) (m n : Nat) : M (Arr × Arr) :=
  if m + n ≠ a.dim then .error .keops else .ok (⟨a.dt, m⟩, ⟨a.dt, n⟩)

/-- `a.assign(val)`. `utils/code_gen_utils.py:356-360`. -/
def Arr.assign (a : Arr) (val : CT) : M Unit := Types.assign a.dt val

/-- An argument of `VectApply`: an array, or a variable. `utils/code_gen_utils.py:406-414`. -/
inductive VArg
  | arr (a : Arr) | var (t : CT)

/-- The dimension of an argument. `utils/code_gen_utils.py:408-412`. -/
def VArg.dim : VArg → Nat
  | .arr a => a.dim
  | .var _ => 1

/-- The type of an entry of an argument. `utils/code_gen_utils.py:422-427`. -/
def VArg.dt : VArg → CT
  | .arr a => a.dt
  | .var t => t

/-- `VectApply(fun, out, *args)`. `utils/code_gen_utils.py:388-429`. -/
def vectApply (f : CT → List CT → M Unit) (out : Arr) (args : List VArg) : M Unit :=
  let dims := out.dim :: args.map VArg.dim
  let dimloop := dims.foldl max 0
  if ¬ dims.all (fun d => d = dimloop ∨ d = 1) then .error .keops
  else f out.dt (args.map VArg.dt)

/-- `VectCopy(out, arg)`. `utils/code_gen_utils.py:457-466`. -/
def vectCopy (out arg : Arr) : M Unit := assign out.dt arg.dt

/-- What is kept by the reductions of an extremum, and by those of the smallest values: values, indices, or both.
`Max_Reduction.py`, `ArgMax_Reduction.py`, `Max_ArgMax_Reduction.py` and the same for `Min`, `KMin`. -/
inductive Keep
  | val | arg | both
  deriving DecidableEq, Repr

/-- The reductions, with the dimension `d` of the formula (of the second formula for the log-sum-exp).
`formulas/reductions/__init__.py`; `isMax` distinguishes `Max` and `Min`. -/
inductive Red
  | sum (d : Nat)
  | ext (isMax : Bool) (keep : Keep) (d : Nat)
  | lse (d : Nat)
  | kmin (keep : Keep) (K d : Nat)
  deriving DecidableEq, Repr

/-- `red_formula.formula.dim`. `Max_SumShiftExpWeight_Reduction.py:29`. -/
def Red.formulaDim : Red → Nat
  | .sum d | .ext _ _ d | .kmin _ _ d => d
  | .lse d => 1 + d

/-- `red_formula.dimred`. `Sum_Reduction.py:18`, `Max_Reduction.py:16`, `Max_ArgMax_Reduction_Base.py:19`,
`Max_SumShiftExpWeight_Reduction.py:33`, `KMin_ArgKMin_Reduction.py:32`. -/
def Red.dimred : Red → Nat
  | .sum d => d
  | .ext _ .val d => d
  | .ext _ _ d => 2 * d
  | .lse d => 1 + d
  | .kmin _ K d => 2 * K * d

/-- `red_formula.dim`. `Sum_Reduction.py:17`, `Max_Reduction.py:15`, `ArgMin_Reduction.py:17`,
`Min_ArgMin_Reduction.py:16`, `Max_SumShiftExpWeight_Reduction.py:32`, `KMin_ArgKMin_Reduction.py:29`,
`KMin_Reduction.py:22`, `ArgKMin_Reduction.py:19`. -/
def Red.dim : Red → Nat
  | .sum d => d
  | .ext _ .both d => 2 * d
  | .ext _ _ d => d
  | .lse d => 1 + d
  | .kmin .both K d => 2 * K * d
  | .kmin _ K d => K * d

/-- `red_formula.dim_kahan`: only sums have this attribute. `Sum_Reduction.py:19`. -/
def Red.dimKahan : Red → M Nat
  | .sum d => .ok d
  | _ => .error .attribute

/-- `infinity(dtype)`, `neg_infinity(dtype)`. `utils/code_gen_utils.py:263-276`. -/
def infinity (t : CT) : M CT := if t = .float ∨ t = .double then .ok t else .error .keops

/-- `InitializeReduction(acc)`. `Sum_Reduction.py:21-24`, `Max_Reduction.py:18-21`,
`Max_ArgMax_Reduction_Base.py:21-25`, `Min_ArgMin_Reduction_Base.py:21-25`,
`Max_SumShiftExpWeight_Reduction.py:35-40`, `KMin_ArgKMin_Reduction.py:34-45`. -/
def Red.initialize : Red → Arr → M Unit
  | .sum _, acc => acc.assign .float
  | .ext _ .val _, acc => do acc.assign (← infinity acc.dt)
  | .ext _ _ d, acc => do
    let (v, a) ← acc.split d d
    v.assign (← infinity acc.dt)
    a.assign .float
  | .lse d, acc => do
    let (m, s) ← acc.split 1 d
    m.assign (← infinity acc.dt)
    s.assign .float
  | .kmin _ _ _, acc => do
    if acc.dt = .half2 then throw .keops
    assign acc.dt (← infinity acc.dt)
    assign acc.dt .float

/-- `ReducePairScalar` of `Max_Reduction` and `Min_Reduction`. `Max_Reduction.py:23-27`, `Min_Reduction.py:23-27`. -/
def extScalar (acc : CT) : List CT → M Unit
  | [xi] => do
    if xi = .half2 then throw .keops
    let _ ← binaryOp xi acc (some .bool)
    assign acc xi
  | _ => .error .type

/-- `ReducePairScalar(acc_val, acc_ind, xi, ind)` of the reductions with indices.
`Max_ArgMax_Reduction_Base.py:27-31`, `Min_ArgMin_Reduction_Base.py:27-31`. -/
def argScalar (accVal : CT) : List CT → M Unit
  | [accInd, xi, ind] => do
    if xi = .half2 then throw .keops
    let _ ← binaryOp xi accVal (some .bool)
    assign accVal xi
    assign accInd ind
  | _ => .error .type

/-- `ReducePairScalar` of the sum. `Sum_Reduction.py:26-29`. -/
def sumScalar (acc : CT) : List CT → M Unit
  | [xi] => addAssign acc xi
  | _ => .error .type

/-- `ReducePair` of the log-sum-exp; `keops_exp` keeps the type. `Max_SumShiftExpWeight_Reduction.py:42-61`. -/
def lsePair (acc xi : Arr) : M Unit := do
  if xi.dt = .half2 then throw .keops
  let tmpexp := acc.dt
  assign tmpexp (← binaryOp xi.dt acc.dt)
  addAssign acc.dt (← binaryOp xi.dt tmpexp)
  assign tmpexp (← binaryOp acc.dt xi.dt)
  assign acc.dt (← binaryOp xi.dt (← binaryOp tmpexp acc.dt))
  assign acc.dt xi.dt

/-- `ReducePair(acc, xi)`. `Reduction.py:22-26`, `Max_ArgMax_Reduction_Base.py:33-38`,
`Min_ArgMin_Reduction_Base.py:33-38` (where `ReducePairScalar` gets three arguments), `KMin_ArgKMin_Reduction.py:47-69`. -/
def Red.reducePair : Red → Arr → Arr → M Unit
  | .sum _, acc, xi => vectApply sumScalar acc [.arr xi]
  | .ext _ .val _, acc, xi => vectApply extScalar acc [.arr xi]
  | .ext _ _ d, acc, xi => do
    let (accVal, _) ← acc.split d d
    let (xiVal, xiInd) ← xi.split d d
    vectApply argScalar accVal [.arr xiVal, .arr xiInd]
  | .lse _, acc, xi => lsePair acc xi
  | .kmin _ _ _, acc, xi => do
    let out := xi.dt
    let _ ← binaryOp xi.dt acc.dt (some .bool)
    assign out xi.dt
    assign out xi.dt
    assign out acc.dt
    assign out acc.dt
    assign acc.dt out

/-- `ReducePairShort(acc, xi, ind)`, `ind` being an integer variable. `Reduction.py:28-33`,
`Max_ArgMax_Reduction_Base.py:40-49`, `Min_ArgMin_Reduction_Base.py:40-49`, `Max_SumShiftExpWeight_Reduction.py:63-64`,
`KMin_ArgKMin_Reduction.py:71-100`. -/
def Red.reducePairShort : Red → Arr → Arr → M Unit
  | .ext m .arg d, acc, xi => short m d acc xi
  | .ext m .both d, acc, xi => short m d acc xi
  | .kmin _ _ _, acc, xi => do
    let xik := xi.dt
    let tmpl := xi.dt
    assign xik xi.dt
    let _ ← binaryOp xik acc.dt (some .bool)
    assign tmpl acc.dt
    assign .long acc.dt
    assign acc.dt xik
    assign acc.dt .long
    assign acc.dt tmpl
    assign acc.dt .long
  | R, acc, xi => R.reducePair acc xi
where
  short (_isMax : Bool) (d : Nat) (acc xi : Arr) : M Unit := do
    if xi.dt = .half2 then throw .keops
    let (accVal, accInd) ← acc.split d d
    vectApply argScalar accVal [.arr accInd, .arr xi, .var .long]

/-- `KahanScheme(acc, xi, tmp)`: only defined for sums and log-sum-exps. `Sum_Reduction.py:31-40`,
`Max_SumShiftExpWeight_Reduction.py:66-87`. -/
def Red.kahan : Red → Arr → Arr → Arr → M Unit
  | .sum _, acc, xi, tmp => do
    let a := acc.dt
    let b := acc.dt
    assign a (← binaryOp xi.dt tmp.dt)
    assign b (← binaryOp acc.dt a)
    assign tmp.dt (← binaryOp (← binaryOp b acc.dt) a)
    assign acc.dt b
  | .lse _, acc, xi, tmp => do
    if xi.dt = .half2 then throw .keops
    let a := acc.dt
    let b := acc.dt
    let u := acc.dt
    let tmpexp := acc.dt
    assign tmpexp (← binaryOp xi.dt acc.dt)
    assign a (← binaryOp (← binaryOp xi.dt tmpexp) tmp.dt)
    assign b (← binaryOp acc.dt a)
    assign tmp.dt (← binaryOp (← binaryOp b acc.dt) a)
    assign acc.dt b
    assign tmpexp (← binaryOp acc.dt xi.dt)
    assign u (← binaryOp tmpexp acc.dt)
    assign a (← binaryOp xi.dt (← binaryOp tmpexp tmp.dt))
    assign b (← binaryOp u a)
    assign tmp.dt (← binaryOp (← binaryOp b u) a)
    assign acc.dt b
    assign acc.dt xi.dt
  | _, _, _, _ => .error .attribute

/-- `FinalizeOutput(acc, out, i)`. `Reduction.py:35-40`, `ArgMin_Reduction.py:19-21`, `ArgMax_Reduction.py:19-21`,
`Min_ArgMin_Reduction.py:18-19`, `KMin_Reduction.py:24-31`, `ArgKMin_Reduction.py:21-30`. -/
def Red.finalize : Red → Arr → Arr → M Unit
  | .ext _ .arg d, acc, out => do
    let (_, accInd) ← acc.split d d
    vectCopy out accInd
  | .kmin .val _ _, acc, out => assign out.dt acc.dt
  | .kmin .arg _ _, acc, out => assign out.dt acc.dt
  | _, acc, out => vectCopy out acc

/-- The summation schemes. `sum_schemes.py:33,44,75`. -/
inductive Sch
  | direct | block | kahan
  deriving DecidableEq, Repr

/-- A scheme object: its class, the reduction, and the attribute `tmp_acc`. `sum_schemes.py:9-15`. -/
structure SchObj where
  sch : Sch
  red : Red
  tmp : M Arr

/-- The constructors of the schemes. `sum_schemes.py:9-15,44-47,75-78`. -/
def SchObj.new (s : Sch) (R : Red) (dt : CT) : M SchObj :=
  match s with
  | .direct => .ok ⟨s, R, .error .attribute⟩
  | .block => .ok ⟨s, R, .ok ⟨dt, R.dimred⟩⟩
  | .kahan => do
    let d ← R.dimKahan
    return ⟨s, R, .ok ⟨dt, d⟩⟩

/-- `declare_temporary_accumulator()`. `sum_schemes.py:17-18,34-35`. -/
def SchObj.declare (o : SchObj) : M Unit :=
  match o.sch with
  | .direct => .ok ()
  | _ => do let _ ← o.tmp

/-- `initialize_temporary_accumulator()`. `sum_schemes.py:37-38,49-53,80-81`. -/
def SchObj.init (o : SchObj) : M Unit :=
  match o.sch with
  | .direct => .ok ()
  | .block => do o.red.initialize (← o.tmp)
  | .kahan => do (← o.tmp).assign .float

/-- `initialize_temporary_accumulator_first_init()`. `sum_schemes.py:20-21,83-84`. -/
def SchObj.firstInit (o : SchObj) : M Unit :=
  match o.sch with
  | .kahan => o.init
  | _ => .ok ()

/-- `initialize_temporary_accumulator_block_init()`. `sum_schemes.py:23-24,55-56`. -/
def SchObj.blockInit (o : SchObj) : M Unit :=
  match o.sch with
  | .block => do o.red.initialize (← o.tmp)
  | _ => .ok ()

/-- `accumulate_result(acc, fout, j, hack)`. `sum_schemes.py:40-41,58-60,86-87`. -/
def SchObj.accumulate (o : SchObj) (acc fout : Arr) (hack : Bool := false) : M Unit :=
  match o.sch with
  | .direct => o.red.reducePairShort acc fout
  | .block => do
    let tmp ← if hack then pure acc else o.tmp
    o.red.reducePairShort tmp fout
  | .kahan => do o.red.kahan acc fout (← o.tmp)

/-- `periodic_accumulate_temporary(acc, j)`. `sum_schemes.py:26-27,62-68`. -/
def SchObj.periodic (o : SchObj) (acc : Arr) : M Unit :=
  match o.sch with
  | .block => do
    o.red.reducePair acc (← o.tmp)
    o.red.initialize (← o.tmp)
  | _ => .ok ()

/-- `final_operation(acc)`. `sum_schemes.py:29-30,70-71`. -/
def SchObj.final (o : SchObj) (acc : Arr) : M Unit :=
  match o.sch with
  | .block => do o.red.reducePair acc (← o.tmp)
  | _ => .ok ()

/-- The classes of `keopscore.mapreduce`, without those that assign zeros. `get_keops_dll.py:75,87-112`. -/
inductive Cls
  | cpu | cpuRanges | gpu1D | gpu1DRanges | chunks | rangesChunks | finalChunks | rangesFinalChunks | gpu2D
  deriving DecidableEq, Repr

/-- The class of a name. `get_keops_dll.py:75,112`. -/
def Cls.ofName : String → Option Cls
  | "CpuReduc" => some .cpu
  | "CpuReduc_ranges" => some .cpuRanges
  | "GpuReduc1D" => some .gpu1D
  | "GpuReduc1D_ranges" => some .gpu1DRanges
  | "GpuReduc1D_chunks" => some .chunks
  | "GpuReduc1D_ranges_chunks" => some .rangesChunks
  | "GpuReduc1D_finalchunks" => some .finalChunks
  | "GpuReduc1D_ranges_finalchunks" => some .rangesFinalChunks
  | "GpuReduc2D" => some .gpu2D
  | _ => none

/-- The code of the CPU. `CpuReduc.py:47-60`. -/
def cpuCode (R : Red) (o : SchObj) (acc fout out : Arr) : M Unit := do
  o.declare
  R.initialize acc
  o.init
  o.accumulate acc fout
  o.periodic acc
  o.final acc
  R.finalize acc out

/-- The code of the CPU with ranges. `CpuReduc_ranges.py:149-153,193-226`. -/
def cpuRangesCode (R : Red) (o : SchObj) (acc fout out : Arr) : M Unit := do
  R.initialize acc
  R.finalize acc out
  o.declare
  R.initialize acc
  o.init
  o.accumulate acc fout
  o.accumulate acc fout
  o.final acc
  R.finalize acc out

/-- The code of the GPU. `GpuReduc1D.py:61-92`; in the versions with ranges and with chunks the calls are the same, but
`accumulate_result` is written twice with ranges: `GpuReduc1D_ranges.py:116-170`, `GpuReduc1D_chunks.py:271-327`,
`GpuReduc1D_ranges_chunks.py:409-496`. -/
def gpuCode (twice : Bool) (R : Red) (o : SchObj) (acc fout out : Arr) : M Unit := do
  o.declare
  R.initialize acc
  o.firstInit
  o.blockInit
  o.accumulate acc fout
  if twice then o.accumulate acc fout
  o.final acc
  R.finalize acc out

/-- The code of the two kernels of the 2D scheme. `GpuReduc2D.py:28-201`. -/
def gpu2DCode (R : Red) (o : SchObj) (dt dta : CT) (fout : Arr) : M Unit := do
  let acc2 : Arr := ⟨dta, R.dimred⟩
  let inloc : Arr := ⟨dt, R.dimred⟩
  let outloc : Arr := ⟨dt, R.dim⟩
  let acc ← match o.sch with
    | .block => pure (⟨dt, R.dimred⟩ : Arr)
    | .direct => pure ⟨dta, R.dimred⟩
    | .kahan => throw .keops
  R.initialize acc2
  R.reducePair acc2 inloc
  R.finalize acc2 outloc
  let tmp ← o.tmp
  R.initialize acc
  if o.sch = .kahan then tmp.assign .float
  o.accumulate acc fout true
  textAssign dt acc.dt

/-- `sizeof(dtype)`: only `float`, `double` and `half` are known, and the last is never the type of the data
(`LoadKeOps.py:82-92`). The number itself is not used here. `utils/code_gen_utils.py:22-30`. -/
def sizeofDt : CT → M Unit
  | .float | .double => pure ()
  | _ => throw .keops

/-- The code of the final chunks, for the sum of a product of a scalar with a vector; `acc` has type `dtypeacc`.
`GpuReduc1D_finalchunks.py:40-68,80-218`, `GpuReduc1D_ranges_finalchunks.py:44-93,103-320`; the size of the blocks is
computed first, `GpuReduc1D_finalchunks.py:120-122`, `GpuReduc1D_ranges_finalchunks.py:143-145`. -/
def finalCode (o : SchObj) (dt dta : CT) : M Unit := do
  sizeofDt dt
  if o.sch ≠ .block then throw .keops
  assign dta .float
  textAssign dt .float
  textAddAssign dta dt
  textAddAssign dt dta

/-- `get_code()` of a class, for data of type `dt` and accumulators of type `dta`. `MapReduce.py:46-78`,
`GpuReduc1D_chunks.py:155-156` (`chk.dimred` is `red_formula.dimred`, `Chunk_Mode_Constants.py:11`). The classes with
chunks compute the size of the blocks when they are built: `GpuReduc1D_chunks.py:131-133`,
`GpuReduc1D_ranges_chunks.py:196-198`. -/
def getCode (c : Cls) (R : Red) (s : Sch) (dt dta : CT) : M Unit := do
  if c = .chunks ∨ c = .rangesChunks then sizeofDt dt
  let o ← SchObj.new s R dt
  let acc : Arr := ⟨dta, R.dimred⟩
  let fout : Arr := ⟨dt, R.formulaDim⟩
  let out : Arr := ⟨dt, R.dim⟩
  match c with
  | .cpu => cpuCode R o acc fout out
  | .cpuRanges => cpuRangesCode R o acc fout out
  | .gpu1D => gpuCode false R o acc fout out
  | .gpu1DRanges => gpuCode true R o acc fout out
  | .chunks => do
    let o ← SchObj.new s R dt
    gpuCode false R o acc fout out
  | .rangesChunks => do
    let o ← SchObj.new s R dt
    gpuCode true R o acc fout out
  | .finalChunks => finalCode o dt dta
  | .rangesFinalChunks => finalCode o dt dta
  | .gpu2D => gpu2DCode R o dt dta fout

/-- The type with this name. `LoadKeOps.py:82-92`, `parse_type.py:226-234`. -/
def CT.ofName : String → Option CT
  | "float" => some .float
  | "double" => some .double
  | "half2" => some .half2
  | "float2" => some .float2
  | _ => none

/-- The scheme with this name: `eval(self.sum_scheme_string)`. `MapReduce.py:59`. -/
def Sch.ofName : String → Option Sch
  | "direct_sum" => some .direct
  | "block_sum" => some .block
  | "kahan_scheme" => some .kahan
  | _ => none

/-- The reduction `op_Reduction(formula, ...)`, for a formula of dimension `d` (the second formula for the weighted
log-sum-exp, whose default value is `IntCst(1)`). `formulas/reductions/__init__.py`,
`Max_SumShiftExpWeight_Reduction.py:24,123`, `common/operations.py:7-35`. -/
def Red.ofName (K d : Nat) : String → Option Red
  | "Sum" => some (.sum d)
  | "Max" => some (.ext true .val d)
  | "ArgMax" => some (.ext true .arg d)
  | "Max_ArgMax" => some (.ext true .both d)
  | "Min" => some (.ext false .val d)
  | "ArgMin" => some (.ext false .arg d)
  | "Min_ArgMin" => some (.ext false .both d)
  | "KMin" => some (.kmin .val K d)
  | "ArgKMin" => some (.kmin .arg K d)
  | "KMin_ArgKMin" => some (.kmin .both K d)
  | "Max_SumShiftExp" => some (.lse 1)
  | "Max_SumShiftExpWeight" => some (.lse d)
  | _ => none

/-- The code of a call with these options: `accuracy` (`Model/Options.lean`) gives the types, the scheme and the internal
reduction. `LoadKeOps.py:72-92,107-144`, `get_keops_dll.py:112-136`. `none`: a name is unknown. -/
def codeOf (c : Cls) (a : Accuracy) (K d : Nat) : Option (M Unit) := do
  getCode c (← Red.ofName K d a.opInternal) (← Sch.ofName a.sumScheme) (← CT.ofName a.dtype) (← CT.ofName a.dtypeAcc)

end Verif.Types
