import Verif.RestObj
import Verif.Python
/-
Python modules made with CLASSDESC_PYTHON_MODULE: the wrappers, their attributes, and what calling one does.
pythonBuffer.h:412-446, 526-606, 660-682, 711-732; RESTProcess_base.h:1055-1095, 1492-1514;
RESTProcess_epilogue.h:103-138; function.h:314-368.

Reference counts are in Verif.Python, and so are the conversions between Python objects and JSON: here arguments
and results are their JSON forms.  Not here: `register`, the dictionary `enum` of the module, `len`, `[]` and the
methods of wrappers (`_list`, `insert`, ...), except that there are such names.
-/
namespace Verif.PyMod
open Verif.Rest Verif.OMap
open Verif.Json (J dot Lib)
open Verif.Python (PyT)
open Verif.EnumKeys (nameOf)

/-! ### Wrappers and their attributes -/

/-- Something in Python: an object of Python's own; one of the methods all wrappers have; or a wrapper
(`CppWrapper`, pythonBuffer.h:419-426) with `special`, what it wraps, and its attributes. -/
inductive A (P : Type)
  | py (v : PyT)
  | meth (n : Str) (cmd : P)
  | wrap (special : Bool) (cmd : P) (ms : Str → Option (A P))

/-- `methods` of a wrapper. -/
abbrev Ms (P : Type) := Str → Option (A P)

def none' {P : Type} : Ms P := fun _ => none

/-- `methods[key]=`, `methods.erase(key)`: pythonBuffer.h:592-604. -/
def upd {P : Type} (ms : Ms P) (n : Str) (v : Option (A P)) : Ms P := fun x => if x = n then v else ms x

/-- The entries of a registry (`RESTProcess_t`) in the order of their keys.  None is a null pointer: nothing in the
library enters one. -/
abbrev Rg (P : Type) := List (Str × P)

/-- The attribute that `attachRegistryObjects` makes of a key, if any, and whether it is special:
pythonBuffer.h:668-678. -/
def attrOf (pre key : Str) : Option (Str × Bool) :=
  if pre <+: key then
    let m := key.drop pre.length
    if dot ∈ m then none
    else
      match m with
      | 64 :: t => some (95 :: t, true)
      | m => some (m, false)
  else none

/-- `attachRegistryObjects(registry,object,prefix)` on an object without attributes: pythonBuffer.h:663-682.  The
number bounds the depth of the recursion, see `depth`. -/
def attach {P : Type} (r : Rg P) : Nat → Str → Ms P
  | 0, _ => none'
  | k + 1, pre =>
    r.foldl (fun ms e =>
      match attrOf pre e.1 with
      | some (n, sp) => upd ms n (some (.wrap sp e.2 (attach r k (e.1 ++ [dot]))))
      | none => ms) none'

/-- A prefix longer than all keys has no keys, and every level has a longer one. -/
def depth {P : Type} : Rg P → Nat
  | [] => 1
  | e :: r => max (e.1.length + 1) (depth r)

/-- The wrappers a module has: pythonBuffer.h:711-720. -/
def initModule {P : Type} (r : Rg P) : Ms P :=
  r.foldl (fun ms e =>
    if e.1 = [] ∨ dot ∈ e.1 ∨ e.1.head? = some 64 then ms
    else upd ms e.1 (some (.wrap false e.2 (attach r (depth r) (e.1 ++ [dot]))))) none'

/-- What is behind wrappers: `isObject()`, `list()`, `asBuffer()` (none: undefined behaviour), `process()`. -/
inductive Ans (P : Type)
  | res (p : P)
  | throw
  | ub
  | other

structure Iface (P S : Type) where
  isObject : P → Bool
  list : P → S → Rg P
  buf : P → S → Option J
  run : P → Str → J → S → Ans P × S

/-- The methods of all wrappers: pythonBuffer.h:510-520. -/
def methods : List Str :=
  [b "_list", b "_properties", b "_signature", b "_type", b "insert", b "erase", b "keys", b "contains"]

/-- `getAttro`: pythonBuffer.h:571-590; none for an AttributeError. -/
def getAttr {P S : Type} (I : Iface P S) (s : S) : A P → Str → Option (A P)
  | .wrap _ cmd ms, n =>
    match ms n with
    | some a => some a
    | none =>
      match mfind strLt (dot :: n) (I.list cmd s) with
      | some p => some (.wrap false p none')
      | none => if n ∈ methods then some (.meth n cmd) else none
  | _, _ => none

/-- `x.n1.n2...` -/
def getPath {P S : Type} (I : Iface P S) (s : S) : A P → List Str → Option (A P)
  | a, [] => some a
  | a, n :: ns => (getAttr I s a n).bind fun a => getPath I s a ns

/-- `module.n1.n2...` -/
def expr {P S : Type} (I : Iface P S) (s : S) (m : Ms P) : List Str → Option (A P)
  | [] => none
  | n :: ns => (m n).bind fun a => getPath I s a ns

/-- `x.n1...nk.n=v`, or `del` without `v`: `setAttro` (pythonBuffer.h:592-604) of what the names lead to; the
object `x` afterwards, none for an AttributeError.  A wrapper that `getAttro` made is not kept anywhere. -/
def setPath {P S : Type} (I : Iface P S) (s : S) : A P → List Str → Str → Option (A P) → Option (A P)
  | .wrap sp cmd ms, [], n, v => some (.wrap sp cmd (upd ms n v))
  | .wrap sp cmd ms, x :: xs, n, v =>
    match ms x with
    | some a => (setPath I s a xs n v).map fun a' => .wrap sp cmd (upd ms x (some a'))
    | none =>
      match mfind strLt (dot :: x) (I.list cmd s) with
      | some p => (setPath I s (.wrap false p none') xs n v).map fun _ => .wrap sp cmd ms
      | none => none
  | _, _, _, _ => none

/-! ### Calls -/

/-- What a call gives: a Python object made from JSON, a wrapper, an exception, undefined behaviour; `other` for
what is not in the model. -/
inductive Res (P : Type)
  | value (j : J)
  | wrap (a : A P)
  | error
  | ub
  | other

/-- `returnResult`: pythonBuffer.h:428-445. -/
def returnResult {P S : Type} (I : Iface P S) (p : P) (s : S) : Res P :=
  match I.buf p s with
  | none => .ub
  | some (.obj _) | some (.arr _) => .wrap (.wrap false p (attach (I.list p s) (depth (I.list p s)) [dot]))
  | some j => .value j

/-- `call`: pythonBuffer.h:541-565; `write` makes text of JSON. -/
def call {P S : Type} (I : Iface P S) (write : J → Str) (special : Bool) (cmd : P) (args : List J) (s : S) :
    Res P × S :=
  if I.isObject cmd = true ∧ args = [] then
    match I.buf cmd s with
    | some j => (.value j, s)
    | none => (.ub, s)
  else
    let q : Str × J :=
      match args with
      | [] => ([], .null)
      | j :: js => if special = true then (write j, .arr []) else ([], .arr (j :: js))
    match I.run cmd q.1 q.2 s with
    | (.res p, s') => (returnResult I p s', s')
    | (.throw, s') => (.error, s')
    | (.ub, s') => (.ub, s')
    | (.other, s') => (.other, s')

/-- Calling anything: only wrappers here. -/
def callA {P S : Type} (I : Iface P S) (write : J → Str) : A P → List J → S → Res P × S
  | .wrap sp cmd _, args, s => call I write sp cmd args s
  | _, _, s => (.other, s)

/-! ### Objects behind the wrappers -/

/-- What is wrapped: what is registered (Verif.RestObj); a text; nothing (`RESTProcessVoid`); a function returning
an object of a class; something that refers to an object that is no more. -/
inductive Cmd
  | node (e : Rest.Node)
  | text (s : Str)
  | void
  | fn (ret : O)
  | dead

/-- The registry for some registrations. -/
def nodes (rs : List (Str × Rest.Node)) : Rg Cmd :=
  (regOf rs).filterMap fun e =>
    match e.2 with
    | .obj i _ => (rs[i]?).map fun x => (e.1, .node x.2)
    | _ => none

/-- The JSON form of an object, given that of classes and what smart pointers point to. -/
def bufO (env : Env) (shw : O → Mem → J) (m : Mem) : O → Option J
  | .var _ a => some (showVar env.lib (m a))
  | .enum _ _ k a =>
    match m a with
    | .int i => some (.str (nameOf k i))
    | _ => none
  | o => some (shw o m)

def ofRO : RO → Ans Cmd
  | .ref o => .res (.node (.obj o))
  | .text s => .res (.text s)
  | .void => .res .void
  | .throw => .throw
  | .ub => .ub
  | .names _ | .listing _ | .about | .stuck => .other

/-- `isObject`: RESTProcess_base.h:481, 1082, 1515 and the default 72 (enumerations).  `list()`: RESTProcess_base.h:
1062-1067, 1092-1096, RESTProcess_epilogue.h:115-125 (objects: a registry of the object alone under the empty name),
547 and 1588 (nothing for enumerations and void), 1500-1514 (functions: the registry of a local variable).
`n` bounds the depth of `process`. -/
def iface (env : Env) (shw : O → Mem → J) (n : Nat) : Iface Cmd Mem where
  isObject
    | .node (.obj (.enum _ _ _ _)) => false
    | .node (.obj _) => true
    | .text _ => true
    | .dead => true
    | _ => false
  list c _ :=
    match c with
    | .node (.obj (.ptr a)) =>
      match env.target a with
      | some o => nodes (regs [] o)
      | none => []
    | .node (.obj (.enum _ _ _ _)) => []
    | .node (.obj o) => nodes (regs [] o)
    | .text s => [([], .text s)]
    | .fn o => (nodes (regs [] o)).map fun e => (e.1, .dead)
    | _ => []
  buf c m :=
    match c with
    | .node (.obj o) => bufO env shw m o
    | .text s => some (.str s)
    | .dead => none
    | _ => some .null
  run c rest args m :=
    match c with
    | .node e => let r := nodeProc env n e rest args m; (ofRO r.1, r.2)
    | .void => (.res .void, m)
    | .dead => (.ub, m)
    | _ => (.other, m)

/-- The module for objects registered with CLASSDESC_ADD_GLOBAL: pythonBuffer.h:817-818. -/
def moduleOf (objs : List (Str × O)) : Ms Cmd := initModule (nodes (objs.flatMap fun e => regs e.1 e.2))

/-! ### Sequences behind the wrappers -/

/-- A sequence (RESTProcessSequence), or one of the functions its `list()` has. -/
inductive SCmd
  | seq
  | elem
  | elemNoThrow
  | erase
  | insert
  | size
  | num (n : Nat)

/-- `list()` of a sequence: RESTProcess_epilogue.h:130-138.  In this const method `*this` is const, `elem`,
`elemNoThrow`, `eraseElem` and `pushBack` are not, so that the function object made by `bindMethod` throws when it is
called (function.h:350-368).  Calling reads the arguments first, of which there are none if the wrapper is special. -/
def seqIface {E : Type} (shw : E → J) : Iface SCmd (List E) where
  isObject
    | .seq => true
    | .num _ => true
    | _ => false
  list c _ :=
    match c with
    | .seq => [(b ".@elem", .elem), (b ".@elemNoThrow", .elemNoThrow), (b ".@erase", .erase),
        (b ".@insert", .insert), (b ".@size", .size)]
    | _ => []
  buf c xs :=
    match c with
    | .seq => some (.arr (xs.map shw))
    | .num n => some (.int n)
    | _ => some .null
  run c rest args xs :=
    match c with
    | .elem | .elemNoThrow | .erase | .insert => (.throw, xs)
    | .size => if rest = [] then (.res (.num xs.length), xs) else (.throw, xs)
    | .seq =>
      match rest, args with
      | [], .null => (.res .seq, xs)
      | [], .arr [] => (.res .seq, xs)
      | _, _ => (.other, xs)
    | .num _ => (.other, xs)

end Verif.PyMod
