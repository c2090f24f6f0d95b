import Verif.Model.Cache

/-!
# Specification of the caches

What a well-formed request is, and what has been seen in a history of processes.
-/

namespace Verif.Cache
open Alias (Str)

/-- The parentheses of `s` match, after `d` open ones. -/
def bal : Nat → Str → Bool
  | d, [] => d = 0
  | d, c :: s =>
    if c = '(' then bal (d + 1) s
    else if c = ')' then 0 < d && bal (d - 1) s
    else bal d s

/-- `name(body)`: a letter first, and matching parentheses in the body. -/
def IsCall (s : Str) : Prop :=
  ∃ c name body, s = (c :: name) ++ '(' :: (body ++ [')']) ∧ c.isAlpha ∧ '(' ∉ c :: name ∧ bal 0 body

/-- The texts of a request are those of formulas: the formula is a call `Name_Reduction(...)`, the
aliases have no quotes, the parentheses of the printed ranges match, and the data type, the language and
the options are among those that the library accepts. -/
structure Req.Wf (r : Req) : Prop where
  formula : IsCall r.formula
  aliases : ∀ a ∈ r.aliases, '\'' ∉ a
  ranges : ∀ t, r.ranges = .tuple t → bal 0 t
  dtype : r.dtype ∈ ["float16", "float32", "float64"]
  lang : r.lang ∈ ["torch", "numpy"]
  dtypeAcc : r.dtypeAcc ∈ ["auto", "float16", "float32", "float64"]
  sumScheme : r.sumScheme ∈ ["direct_sum", "block_sum", "kahan_scheme"]

/-- The first character is not a digit. -/
def NoDigit (s : Str) : Prop := ∀ c ∈ s.head?, ¬ c.isDigit

/-- Compilation flags do not begin with a digit. -/
def Env.Wf (e : Env) : Prop := NoDigit e.flags

/-- The generator prints classes as `<class '...'>` and reductions as calls. -/
structure Gen.Wf {Info Code : Type} (g : Gen Info Code) : Prop where
  cls : ∀ e d c, g.cls e d = some c → ∃ a, c = a ++ ['>'] ∧ '>' ∉ a
  text : ∀ b f as, IsCall f → IsCall (g.text b f as)

/-- The requests of a history are well formed, and so are the settings. -/
def Event.Wf : Event → Prop
  | .request r => r.Wf
  | .setEnv e => e.Wf
  | .exit _ imp e => NoDigit imp ∧ e.Wf
  | .kill _ imp e => NoDigit imp ∧ e.Wf
  | .clean => True

/-- The address and the settings after an event. -/
def Event.seen : Str × Env → Event → Str × Env
  | p, .request _ => p
  | p, .setEnv e => (p.1, e)
  | _, .exit a _ e => (a, e)
  | _, .kill a _ e => (a, e)
  | p, .clean => p

/-- The pairs of an address and of settings seen from `p` on, during the history `h`. -/
def seen (p : Str × Env) : List Event → List (Str × Env)
  | [] => [p]
  | e :: h => p :: seen (e.seen p) h

/-- The address and the settings after a history. -/
def now (p : Str × Env) (h : List Event) : Str × Env := h.foldl Event.seen p

/-- The flags at import of the processes of a history. -/
def imports (i : Str) : List Event → List Str
  | [] => [i]
  | .exit _ j _ :: h => i :: imports j h
  | .kill _ j _ :: h => i :: imports j h
  | _ :: h => i :: imports i h

/-- The requests of a history. -/
def requests (h : List Event) : List Req := h.filterMap (fun | .request r => some r | _ => none)

/-- No two different strings hashed during the history have the same hash. -/
def NoCollision {Info Code : Type} (g : Gen Info Code) (a i : Str) (e : Env) (h : List Event) : Prop :=
  let K : Str → Prop := fun k => ∃ r ∈ requests h, ∃ p ∈ seen (a, e) h, ∃ f ∈ imports i h, ∃ d j,
    r.toDll = some d ∧ g.job p.2 d = some j ∧ k = j.key f
  ∀ k k', K k → K k' → g.hash k = g.hash k' → k = k'

/-- What a user of the request `r` must get under the settings `e`: the information and the code generated for `r`. -/
def Serves {Info Code : Type} (g : Gen Info Code) (e : Env) (r : Req) (o : Obj Info Code) : Prop :=
  ∃ d j, r.toDll = some d ∧ g.job e d = some j ∧ o.par.req = r ∧ o.par.info = g.info j ∧ o.code = g.code j

end Verif.Cache
