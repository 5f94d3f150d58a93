import Verif.RestObj
import Verif.Python
/-
The dictionary `enum` of a Python module: pythonBuffer.h:735-745, and what is registered for it: RESTProcess_base.h:1545-1553,
1604-1634.
-/
namespace Verif.PyEnum
open Verif.Rest Verif.OMap
open Verif.EnumKeys (Keys knames)

/-- The type of a parameter or a result: an enumeration by value, an enumeration by reference, anything else. -/
inductive PT
  | enum (tn : Str) (k : Keys)
  | enumRef (tn : Str) (k : Keys)
  | other

/-- `defineType<T>`: RESTProcess_base.h:1604-1612; a reference to an enumeration is no enumeration. -/
def defineType : PT → List (Str × Node)
  | .enum tn k => [(b "@enum." ++ tn, .enums k)]
  | .enumRef _ _ => []
  | .other => []

/-- A function's parameters and result. -/
structure Sig where
  args : List PT
  ret : PT

/-- `DefineFunctionArgTypes`: RESTProcess_base.h:1614-1630: from the last to the first, then the result.  (The function
itself is registered under a name that does not matter here.) -/
def fnRegs (f : Sig) : List (Str × Node) := f.args.reverse.flatMap defineType ++ defineType f.ret

/-- What a program has registered: some objects and some functions. -/
def all (objs : List (Str × O)) (fns : List Sig) : List (Str × Node) :=
  objs.flatMap (fun e => regs e.1 e.2) ++ fns.flatMap fnRegs

/-- The loop of `initModule`: pythonBuffer.h:738-744.  `none`: an exception. -/
def fill (env : Env) (rs : List (Str × Node)) (m : Mem) : List Str → List (Str × List Str) → Option (List (Str × List Str))
  | [], d => some d
  | n :: ns, d =>
    match (regProc env 2 rs (b "@enum." ++ n) .null m).1 with
    | .names l => fill env rs m ns (Python.setItem n l d)
    | _ => none

/-- The dictionary: pythonBuffer.h:735-745. -/
def enumDict (env : Env) (objs : List (Str × O)) (fns : List Sig) (m : Mem) : Option (List (Str × List Str)) :=
  match process (regOf (all objs fns)) (b "@enum.@list") with
  | .enums l => fill env (all objs fns) m l []
  | _ => none

end Verif.PyEnum
