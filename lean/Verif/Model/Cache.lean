import Verif.Model.Lazy
import Verif.Model.Options

/-!
# Caches of compiled routines

Models of `Cache` and `Cache_partial` (`keopscore/utils/Cache.py`), of the keys built by `LoadKeOps`
(`pykeops/common/keops_io/LoadKeOps.py`), `get_keops_dll` (`keopscore/get_keops_dll.py`) and `LinkCompile`
(`keopscore/binders/LinkCompile.py`), and of the life of these caches in successive processes.

What the code generator produces is a parameter: the text of the reduction, the class of the map-reduce scheme, the
source file and its information file.  The build folder is a list of files indexed by the hash; a source, its
information file and its compiled library are one entry (`Model/Build.lean` separates them).  The two caches for the
CPU and the GPU are one list, their keys begin with different digits.  `set_build_folder` is in `Model/BuildFolder.lean`.
Exceptions are `none`.
-/

namespace Verif.Cache
open Alias (Str)
open Lazy (num)

/-! ## Printing -/

/-- `str(b)` for a boolean. `utils/Cache.py:31,85`. -/
def pyBool (b : Bool) : Str := if b then "True".toList else "False".toList

/-- `str(n)` for `n` equal to 0 or 1. `utils/Cache.py:31,85`. -/
def digit (b : Bool) : Char := if b then '1' else '0'

/-- `str(z)` for an integer. `utils/Cache.py:31,85`. -/
def pyInt : Int → Str
  | .ofNat n => num n
  | .negSucc n => '-' :: num (n + 1)

/-- The strings of a list after the first one, in `str(l)`. `utils/Cache.py:31,85`. Simplification: strings
without quotes, backslashes and control characters, which are printed between simple quotes. -/
def reprRest : List Str → Str
  | [] => [']']
  | a :: l => ',' :: ' ' :: '\'' :: (a ++ '\'' :: reprRest l)

/-- `str(l)` for a list of strings. `utils/Cache.py:31,85`. -/
def reprList : List Str → Str
  | [] => ['[', ']']
  | a :: l => '[' :: '\'' :: (a ++ '\'' :: reprRest l)

/-! ## Requests -/

/-- The argument `use_ranges`: a boolean (`torch/generic/generic_red.py:83`), or in the solvers `nbatchdims > 0
or ranges` (`torch/operations.py:39`, `numpy/operations.py:242`), which is `True`, `None` or the tuple of the ranges. -/
inductive Ranges
  | flag (b : Bool)
  | none
  | tuple (text : Str)

/-- `str(use_ranges)`. `utils/Cache.py:85`. -/
def Ranges.str : Ranges → Str
  | .flag b => pyBool b
  | .none => "None".toList
  | .tuple t => '(' :: (t ++ [')'])

/-- `if use_ranges:`, `LoadKeOps.py:104`. -/
def Ranges.truthy : Ranges → Bool
  | .flag b => b
  | .none => false
  | .tuple t => t ≠ []

/-- The arguments of `LoadKeOps.init`. `LoadKeOps.py:33-46`. -/
@[ext] structure Req where
  gpu : Bool
  twoD : Bool
  device : Bool
  ranges : Ranges
  deviceId : Int
  formula : Str
  aliases : List Str
  nargs : Nat
  dtype : String
  lang : String
  dtypeAcc : String
  sumScheme : String
  fastMath : Bool
  chunks : Bool
  highdim : Bool

/-- `str(optional_flags)`. `common/parse_type.py:195-205`, `torch/generic/generic_red.py:73-76`. -/
def Req.flagsStr (r : Req) : Str :=
  "{'dtype_acc': '".toList ++ (r.dtypeAcc.toList ++ '\'' :: (", 'sum_scheme': '".toList ++
    (r.sumScheme.toList ++ '\'' :: (", 'use_fast_math': ".toList ++ digit r.fastMath ::
      (", 'enable_chunks': ".toList ++ digit r.chunks :: (", 'multVar_highdim': ".toList ++
        digit r.highdim :: ['}']))))))

/-- The key of `Cache_partial`; `addr` is `str(env_param)`, the printed representation of a function, which contains
an address. `utils/Cache.py:85`. -/
def Req.key (addr : Str) (r : Req) : Str :=
  digit r.gpu :: digit r.twoD :: digit r.device :: (r.ranges.str ++ (pyInt r.deviceId ++ (r.formula ++
    (reprList r.aliases ++ (num r.nargs ++ (r.dtype.toList ++ (r.lang.toList ++ (r.flagsStr ++ addr))))))))

/-- The arguments of `get_keops_dll`, without `enable_finalchunks` which is always -1. `LoadKeOps.py:127-144`. -/
@[ext] structure DllReq where
  id : String
  formula : Str
  chunks : Bool
  highdim : Bool
  aliases : List Str
  nargs : Nat
  dtype : String
  dtypeAcc : String
  sumScheme : String
  device : Bool
  gpu : Bool
  twoD : Bool
  half : Bool
  fastMath : Bool
  deviceId : Int

/-- `map_reduce_id`, `LoadKeOps.py:98-105`. -/
def mapReduceId (gpu twoD ranges : Bool) : String :=
  (if gpu = false then "CpuReduc" else if twoD = false then "GpuReduc1D" else "GpuReduc2D") ++
    (if ranges then "_ranges" else "")

/-- `f"{varname}=Var({ind},{dim},{cat})"`, `LoadKeOps.py:63`. -/
def bindingStr (b : Alias.Binding) : Str :=
  b.name ++ '=' :: Lazy.formatVar "Var".toList b.ind b.dim (num b.cat)

/-- From the arguments of `LoadKeOps.init` to those of `get_keops_dll`. `LoadKeOps.py:47-144`. -/
def Req.toDll (r : Req) : Option DllReq := do
  let bs ← Alias.loadAliases (r.aliases.map some)
  let acc ← parseDtypeAcc r.dtypeAcc r.dtype
  let c ← cDtype r.dtype
  pure ⟨mapReduceId r.gpu r.twoD r.ranges.truthy, r.formula, r.chunks, r.highdim, bs.map bindingStr, r.nargs, c,
    acc, r.sumScheme, r.device, r.gpu, r.twoD, r.dtype = "float16", r.fastMath, r.deviceId⟩

/-- The settings read by `env_param`. `utils/Cache.py:8-12`. -/
structure Env where
  flags : Str
  autoFactorize : Bool
deriving DecidableEq

/-- `env_param()`, `utils/Cache.py:8-12`. -/
def Env.str (e : Env) : Str := e.flags ++ (" auto_factorize=".toList ++ pyBool e.autoFactorize)

/-- The key of `Cache`. `utils/Cache.py:31`. -/
def DllReq.key (e : Env) (d : DllReq) : Str :=
  d.id.toList ++ (d.formula ++ (digit d.chunks :: '-' :: '1' :: digit d.highdim :: (reprList d.aliases ++
    (num d.nargs ++ (d.dtype.toList ++ (d.dtypeAcc.toList ++ (d.sumScheme.toList ++ digit d.device ::
      digit d.gpu :: digit d.twoD :: (pyBool d.half ++ digit d.fastMath :: (pyInt d.deviceId ++ e.str)))))))))

/-- What `LinkCompile` hashes, without the flags: the class of the map-reduce scheme (`cls`), the reduction (`text`)
and the arguments of the scheme. `LinkCompile.py:19-35`. -/
@[ext] structure Job where
  cls : Str
  text : Str
  formula : Str
  aliases : List Str
  nargs : Nat
  dtype : String
  dtypeAcc : String
  sumScheme : String
  device : Bool
  gpu : Bool
  twoD : Bool
  half : Bool
  fastMath : Bool
  deviceId : Int

/-- The hashed string; `imp` are the compilation flags read when `LinkCompile` was imported.
`LinkCompile.py:6,19-35`, `utils/code_gen_utils.py:11-14`. -/
def Job.key (imp : Str) (j : Job) : Str :=
  j.cls ++ (j.text ++ (j.formula ++ (reprList j.aliases ++ (num j.nargs ++ (j.dtype.toList ++ (j.dtypeAcc.toList ++
    (j.sumScheme.toList ++ digit j.device :: digit j.gpu :: digit j.twoD :: (pyBool j.half ++ digit j.fastMath ::
      (pyInt j.deviceId ++ imp)))))))))

/-! ## The code generator -/

/-- What is left abstract: the class chosen for a request (`none`: exception), the printed reduction, the hash, and
the contents of the information and source files. `get_keops_dll.py:87-133`, `GetReduction.py`,
`LinkCompile.py:48-88`. Simplification: the generated code depends on the hashed data only (names of local variables
are renamed, and the effect of `cpp_flags` is not part of the code). -/
structure Gen (Info Code : Type) where
  cls : Env → DllReq → Option Str
  text : Bool → Str → List Str → Str
  hash : Str → Str
  info : Job → Info
  code : Job → Code

variable {Info Code : Type}

/-- The object built for a request. `get_keops_dll.py:112-130`, `MapReduce.py:11-41`. -/
def Gen.job (g : Gen Info Code) (e : Env) (d : DllReq) : Option Job :=
  (g.cls e d).map (fun c => ⟨c, g.text e.autoFactorize d.formula d.aliases, d.formula, d.aliases, d.nargs, d.dtype,
    d.dtypeAcc, d.sumScheme, d.device, d.gpu, d.twoD, d.half, d.fastMath, d.deviceId⟩)

/-! ## Processes -/

/-- `self.params`. `LoadKeOps.py:66-165`. -/
structure Par (Info : Type) where
  req : Req
  tag : Str
  info : Info

/-- A `LoadKeOps` object: its parameters and the loaded code. `LoadKeOps.py:14-31`. -/
structure Obj (Info Code : Type) where
  par : Par Info
  code : Code

/-- The state: the current process (address, flags at import, settings, the dictionary `library` of `Cache_partial`,
its dictionary `library_params`, the dictionary of `Cache`) and the disk (build folder, the two pickle files).
`utils/Cache.py:15-28,68-82`. -/
structure Sys (Info Code : Type) where
  addr : Str
  imp : Str
  env : Env
  lib : List (Str × Obj Info Code)
  par : List (Str × Par Info)
  dll : List (Str × (Str × Info))
  disk : List (Str × (Info × Code))
  parFile : List (Str × Par Info)
  dllFile : List (Str × (Str × Info))

/-- `get_keops_dll_impl`: the files are generated if they are not in the build folder. `get_keops_dll.py:78-166`,
`LinkCompile.py:93-125`. -/
def dllImpl (g : Gen Info Code) (s : Sys Info Code) (d : DllReq) : Option ((Str × Info) × Sys Info Code) :=
  (g.job s.env d).map (fun j =>
    let name := g.hash (j.key s.imp)
    match s.disk.lookup name with
    | some f => ((name, f.1), s)
    | none => ((name, g.info j), { s with disk := (name, (g.info j, g.code j)) :: s.disk }))

/-- `Cache.__call__`, `utils/Cache.py:30-34`. -/
def getDll (g : Gen Info Code) (s : Sys Info Code) (d : DllReq) : Option ((Str × Info) × Sys Info Code) :=
  match s.dll.lookup (d.key s.env) with
  | some v => some (v, s)
  | none => (dllImpl g s d).map (fun (v, s) => (v, { s with dll := (d.key s.env, v) :: s.dll }))

/-- `init_phase2`: the import of the compiled module. `LoadKeOps_cpp.py:39-46`. -/
def load (s : Sys Info Code) (p : Par Info) : Option (Obj Info Code) := (s.disk.lookup p.tag).map (fun f => ⟨p, f.2⟩)

/-- `Cache_partial.__call__`, with `LoadKeOps.__init__`. An exception leaves the dictionaries unchanged, except that
`get_keops_dll` may have stored its result. `utils/Cache.py:84-97`, `LoadKeOps.py:14-31`. -/
def request (g : Gen Info Code) (s : Sys Info Code) (r : Req) : Option (Obj Info Code) × Sys Info Code :=
  match s.lib.lookup (r.key s.addr) with
  | some o => (some o, s)
  | none =>
    match s.par.lookup (r.key s.addr) with
    | some p =>
      match load s p with
      | some o => (some o, { s with lib := (r.key s.addr, o) :: s.lib })
      | none => (none, s)
    | none =>
      match r.toDll with
      | none => (none, s)
      | some d =>
        match getDll g s d with
        | none => (none, s)
        | some (v, s) =>
          match load s ⟨r, v.1, v.2⟩ with
          | none => (none, s)
          | some o =>
            (some o, { s with par := (r.key s.addr, o.par) :: s.par, lib := (r.key s.addr, o) :: s.lib })

/-- What can happen: a request, a change of the settings, the end of the process (the dictionaries are saved) or its
death (they are not) followed by a new process, and `clean_pykeops()`. `utils/Cache.py:20-28,36-44,84-109`,
`pykeops/__init__.py:47-61`, `utils/code_gen_utils.py:831-850`. -/
inductive Event
  | request (r : Req)
  | setEnv (e : Env)
  | exit (addr imp : Str) (e : Env)
  | kill (addr imp : Str) (e : Env)
  | clean

/-- A new process reads the pickle files. `utils/Cache.py:20-25,72-79`. -/
def start (s : Sys Info Code) (addr imp : Str) (e : Env) : Sys Info Code :=
  { s with addr := addr, imp := imp, env := e, lib := [], par := s.parFile, dll := s.dllFile }

/-- One event: the answer (for a request) and the new state. `utils/Cache.py:15-109`. -/
def step (g : Gen Info Code) (s : Sys Info Code) : Event → Option (Obj Info Code) × Sys Info Code
  | .request r => request g s r
  | .setEnv e => (none, { s with env := e })
  | .exit a i e => (none, start { s with parFile := s.par, dllFile := s.dll } a i e)
  | .kill a i e => (none, start s a i e)
  | .clean => (none, { s with lib := [], par := [], dll := [], disk := [], parFile := [], dllFile := [] })

/-- The state after a history. `utils/Cache.py:15-109`. -/
def after (g : Gen Info Code) (s : Sys Info Code) (h : List Event) : Sys Info Code :=
  h.foldl (fun s e => (step g s e).2) s

/-- A first process with an empty build folder. `utils/Cache.py:15-28,68-82`. -/
def fresh (Info Code : Type) (addr imp : Str) (e : Env) : Sys Info Code :=
  ⟨addr, imp, e, [], [], [], [], [], []⟩

/-! ## Parsed formulas -/

/-- `GetReduction`: the reductions already parsed, indexed by a hash of the formula, the aliases and the setting
`auto_factorize`. `GetReduction.py:16-39`. -/
def getReduction {Red : Type} (hash : Str → Str) (parse : Str → List Str → Bool → Red) (lib : List (Str × Red))
    (f : Str) (as : List Str) (auto : Bool) : Red × List (Str × Red) :=
  let k := hash (f ++ (reprList as ++ pyBool auto))
  match lib.lookup k with
  | some x => (x, lib)
  | none => (parse f as auto, (k, parse f as auto) :: lib)

end Verif.Cache
