import Verif.Rest
import Verif.Codec
/-
Calling functions from buffers: function.h:482-645, RESTProcess_base.h:1125-1228.
-/
namespace Verif.Rest
open Verif.Json (J)

/-- An exception or a result, with the state of the buffer (or what is called) after it. -/
inductive Ret (E S R : Type)
  | ok (r : R) (s : S)
  | throw (e : E) (s : S)

/-- `CurryFirst<F>(f,a)`: function.h:524-551. -/
def curryFirst {V A : Type} (f : List V → A) (a : V) : List V → A := fun args => f (a :: args)

/-- `CallOnBuffer`, `eval`: function.h:560-614, for a function with parameters of types `ts`, all of
them acceptable.  `rd t` is `A a{}; b>>a` with `A` the parameter type without const and reference; the
function is given its arguments as a list.  A function with a `const char*` parameter gets the
characters of the string read. -/
def callOnBuffer {T V B E R : Type} (rd : T → B → Ret E B V) : List T → (List V → R) → B → Ret E B R
  | [], f, b => .ok (f []) b
  | t :: ts, f, b =>
    match rd t b with
    | .ok a b' => callOnBuffer rd ts (curryFirst f a) b'
    | .throw e b' => .throw e b'

/-! ### JSON arguments -/

/-- `JSONBuffer(j)`: RESTProcess_base.h:1131-1138: the values not read yet. -/
def jsonBuffer : J → List J
  | .arr l => l
  | .null => []
  | j => [j]

/-- `A a{}; b>>a` on a `JSONBuffer`: RESTProcess_base.h:1145-1149; `dec t` is what reading a value
(`>>` of the buffer type) into a default object of type `t` gives, `none` for an exception. -/
def jsonRead {T V : Type} (dflt : T → V) (dec : T → J → Option V) (t : T) : List J → Ret Unit (List J) V
  | [] => .ok (dflt t) []
  | j :: js =>
    match dec t j with
    | some v => .ok v js
    | none => .throw () js

/-- What is done with the object a function returned: returned as it is, after assigning to it, or a
further path is processed by it. -/
inductive Then
  | ret
  | assign (j : J)
  | process (rest : Str) (args : J)

/-- `callFunction` after the call, for a function of `n` parameters returning a reference:
RESTProcess_base.h:1166-1190. -/
def after (n : Nat) (rest : Str) (args : J) : Then :=
  if rest = [] then
    match args with
    | .null => .ret
    | .arr l => if n < l.length then .assign (l.getD n .null) else .ret
    | j => if n = 0 then .assign j else .ret
  else .process rest args

/-- The same for one returning a value: RESTProcess_base.h:1202-1207. -/
def afterValue (rest : Str) (args : J) : Then :=
  if rest = [] then .ret else .process rest args

/-- `callFunction`, for functions returning references (`ref`) and values: the result of the call and
what follows. -/
def callFunction {T V R : Type} (dflt : T → V) (dec : T → J → Option V) (ref : Bool) (ts : List T)
    (f : List V → R) (rest : Str) (args : J) : Option (R × Then) :=
  match callOnBuffer (jsonRead dflt dec) ts f (jsonBuffer args) with
  | .ok r _ => some (r, if ref = true then after ts.length rest args else afterValue rest args)
  | .throw _ _ => none

end Verif.Rest

namespace Verif.Rest
open Verif

/-! ### Binary arguments -/

/-- `PackFunctor<pack_t>::pack<F>(args...)`: function.h:627-640: each argument converted to the
parameter's type and packed. -/
def packArgs (al : Alloc) : List Ty → List Val → M Unit
  | t :: ts, v :: vs => M.bind (packM al t v) fun _ => packArgs al ts vs
  | _, _ => M.pure ()

/-- `A a{}; b>>a` on a `pack_t`. -/
def packRead (lim : Nat) (t : Ty) (b : Buf) : Ret (Res Unit) Buf Val :=
  match decM lim t (dflt t) b with
  | (.ok v, b') => .ok v b'
  | (.throw e, b') => .throw (.throw e) b'
  | (.ub u, b') => .throw (.ub u) b'

end Verif.Rest
