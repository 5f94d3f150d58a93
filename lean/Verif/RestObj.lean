import Verif.RestSeq
/-
Objects behind the REST interface: what the descriptor registers for a class, its bases, its members, its
enumerations and smart pointers, and what a path into them reads and changes.  RESTProcess_base.h:154-238,
336-342, 443-469, 580-586, 1060-1122, 1563-1592, 1604-1607, 1629-1640, 1672-1676; RESTProcess_epilogue.h:175-185,
381-407, 506-519; polyRESTProcess.h:36-56.

Not here: functions (Verif.RestCall), sequences and maps (Verif.RestSeq, Verif.RestMap), arrays, const and
static members, excluded members (nothing is registered for them).
-/
namespace Verif.Rest
open OMap EnumKeys
open Verif.Json (J R Lib Oc getInt getReal getBool getStr dot)

/-- Types of simple variables: integral types other than `bool` and `char`, `bool`, `double` and
`std::string`. -/
inductive VK
  | int (u : Under)
  | bool
  | real
  | str

/-- What a simple variable holds. -/
inductive VV
  | int (i : Int)
  | bool (x : Bool)
  | real (r : Nat)
  | str (s : Str)
  deriving DecidableEq

mutual
/-- An object in memory, with its address: a simple variable; an enumeration with its type's name,
underlying type and table; a described class; a smart pointer (`unique_ptr`, `shared_ptr`, `weak_ptr`), of
which `target` below tells what it points to. -/
inductive O
  | var (k : VK) (a : Nat)
  | enum (tn : Str) (u : Under) (k : Keys) (a : Nat)
  | cls (a : Nat) (ms : Ms)
  | ptr (a : Nat)
/-- The body of a class's descriptor: its bases and members in order. -/
inductive Ms
  | nil
  | base (o : O) (r : Ms)
  | mem (n : Str) (o : O) (r : Ms)
end

/-- The values of the simple variables and enumerations. -/
abbrev Mem := Nat → VV

def Mem.put (m : Mem) (a : Nat) (v : VV) : Mem := fun x => if x = a then v else m x

/-- What the model is given: the JSON library, the conversion of a double to an integral type (none if it is
out of range), the pointers, and what assigning a JSON value to an object of a class does. -/
structure Env where
  lib : Lib
  trunc : Under → Nat → Option Int
  target : Nat → Option O
  assign : O → J → Mem → Oc × Mem

def int64 : Under := ⟨.w64, true⟩

/-! ### Assignment -/

/-- `j>>x` of a simple variable: json_pack_base.h:205-211, 359-372, where a `json_pack_error` is not passed
on. -/
def unpackVar (lib : Lib) (k : VK) (j : J) (v : VV) : Oc × VV :=
  let r : R VV :=
    match k with
    | .int u => (getInt lib u j).bind fun | .int i => .ok (.int i) | _ => .ub
    | .bool => (getBool lib j).bind fun | .bool x => .ok (.bool x) | _ => .ub
    | .real => (getReal lib j).bind fun | .real x => .ok (.real x) | _ => .ub
    | .str => (getStr lib j).bind fun | .str s => .ok (.str s) | _ => .ub
  match r with
  | .ok w => (.ok, w)
  | .throw e => if e.isPack then (.ok, v) else (.throw e, v)
  | .ub => (.ub, v)

/-- A number assigned to a `std::string` goes by `operator=(char)`: the character with that code. -/
def charOf (i : Int) : VV := .str [UInt8.ofNat (i % 256).toNat]

/-- `convert(X&,const REST_PROCESS_BUFFER&)` for simple variables, RESTProcess_base.h:190-238, with the
`convert` it ends in (166-185): assignment where there is one (a `std::string` can be assigned a `char`, so
any number), otherwise conversion (numbers to numbers), otherwise an exception (a string to a number). -/
def convVar (lib : Lib) (trunc : Under → Nat → Option Int) (k : VK) (j : J) (v : VV) : Oc × VV :=
  match j with
  | .null => (.ok, v)
  | .arr [] => (.ok, v)
  | .arr (j :: _) => unpackVar lib k j v
  | .obj _ => unpackVar lib k j v
  | .str s =>
    match k with
    | .str => (.ok, .str s)
    | _ => (.throw .lib, v)
  | .bool x =>
    match k with
    | .int _ => (.ok, .int (if x then 1 else 0))
    | .bool => (.ok, .bool x)
    | .real => (.ok, .real (lib.ofInt (if x then 1 else 0)))
    | .str => (.ok, charOf (if x then 1 else 0))
  | .int i =>
    match k with
    | .int u => (.ok, .int (cast u (cast int64 i)))
    | .bool => (.ok, .bool (cast int64 i != 0))
    | .real => (.ok, .real (lib.ofInt (cast int64 i)))
    | .str => (.ok, charOf (cast int64 i))
  | .real r =>
    match k with
    | .int u => match trunc u r with | some i => (.ok, .int i) | none => (.ub, v)
    | .bool => (.ok, .bool (r != lib.ofInt 0))
    | .real => (.ok, .real r)
    | .str => match trunc ⟨.w8, true⟩ r with | some i => (.ok, charOf i) | none => (.ub, v)

/-- `string tmp; j>>tmp;` as above: what `tmp` is, or an exception. -/
def readStr (lib : Lib) (j : J) : R Str :=
  match getStr lib j with
  | .ok (.str s) => .ok s
  | .ok _ => .ub
  | .throw e => if e.isPack then .ok [] else .throw e
  | .ub => .ub

/-- An enumeration assigned what `convert(E&,const REST_PROCESS_BUFFER&)` makes of a JSON value:
RESTProcess_base.h:336-342. -/
def convEnum (lib : Lib) (u : Under) (k : Keys) (j : J) (v : VV) : Oc × VV :=
  match readStr lib j with
  | .ok s => (.ok, .int (ofName u k s))
  | .throw e => (.throw e, v)
  | .ub => (.ub, v)

/-- `convert(x,j)` by the type of the object.  A `shared_ptr` or `weak_ptr` passes it on (323-333; `n`
bounds the pointers to pointers followed). -/
def convO (env : Env) : Nat → O → J → Mem → Oc × Mem
  | _, .var k a, j, m => let r := convVar env.lib env.trunc k j (m a); (r.1, m.put a r.2)
  | _, .enum _ u k a, j, m => let r := convEnum env.lib u k j (m a); (r.1, m.put a r.2)
  | _, .cls a ms, j, m => env.assign (.cls a ms) j m
  | 0, .ptr _, _, m => (.ub, m)
  | n + 1, .ptr a, j, m => match env.target a with | some o => convO env n o j m | none => (.ok, m)

/-! ### The registry -/

/-- A registered entry: a variable, or the enumerators of an enumeration. -/
inductive Node
  | obj (o : O)
  | enums (k : Keys)

mutual
/-- `RESTProcess(repo,d,a)`: what is registered and under which names, in order.  RESTProcess_base.h:582-585
(`emplace` for simple variables), 1604-1607 and 1629-1634 (enumerations), 1636-1638 (bases, under the name
of the object), 1672-1675 (smart pointers); RESTProcess_epilogue.h:179-185 (classes: first all that is
inside, then the object itself); members are described under the name with a dot and theirs. -/
def regs (d : Str) : O → List (Str × Node)
  | .var k a => [(d, .obj (.var k a))]
  | .enum tn u k a => [(d, .obj (.enum tn u k a)), (b "@enum." ++ tn, .enums k)]
  | .cls a ms => regsM d ms ++ [(d, .obj (.cls a ms))]
  | .ptr a => [(d, .obj (.ptr a))]
def regsM (d : Str) : Ms → List (Str × Node)
  | .nil => []
  | .base o r => regs d o ++ regsM d r
  | .mem n o r => regs (d ++ dot :: n) o ++ regsM d r
end

/-- How an entry is registered; `i` says which it is. -/
def opOf (i : Nat) : Str × Node → Op
  | (d, .obj (.var _ _)) => .prim d i
  | (d, .obj (.ptr _)) => .obj d i true
  | (d, _) => .obj d i false

/-- The registrations, numbered from `i`. -/
def opsFrom : Nat → List (Str × Node) → List Op
  | _, [] => []
  | i, e :: rs => opOf i e :: opsFrom (i + 1) rs

/-- The registry they give. -/
def regOf (rs : List (Str × Node)) : Reg := build (opsFrom 0 rs)

/-! ### Requests -/

/-- What a request gives: a reference to an object, some text (a copy), the enumerators, nothing
(`RESTProcessVoid`), the names of what is inside an entry (`@list`), something else about an entry (`@type`,
`@signature`, the enumerations); an exception; or undefined behaviour.  `stuck` is when the bound on the model's recursion is reached. -/
inductive RO
  | ref (o : O)
  | text (s : Str)
  | names (l : List Str)
  | void
  | listing (l : List Str)
  | about
  | throw
  | ub
  | stuck

/-- What follows an assignment. -/
def after' (ok : RO) : Oc × Mem → RO × Mem
  | (.ok, m) => (ok, m)
  | (.throw _, m) => (.throw, m)
  | (.ub, m) => (.ub, m)

/-- `RESTProcessEnum::process`: RESTProcess_base.h:1569-1586; the rest of the path is looked at only for two
forms without the dot that is always there. -/
def enumProc (env : Env) (u : Under) (k : Keys) (a : Nat) (rest : Str) (args : J) (m : Mem) : RO × Mem :=
  let show' (m : Mem) : RO × Mem :=
    match m a with
    | .int i => (.text (nameOf k i), m)
    | _ => (.ub, m)
  if rest = b "@type" ∨ rest = b "@signature" then (.about, m)
  else
    match args with
    | .str s => show' (m.put a (.int (ofName u k s)))
    | .arr (j :: _) =>
      match readStr env.lib j with
      | .ok s => show' (m.put a (.int (ofName u k s)))
      | .throw _ => (.throw, m)
      | .ub => (.ub, m)
    | _ => show' m

/-- The names in a registry but the empty one: RESTProcess_epilogue.h:446-450. -/
def listed (rs : List (Str × Node)) : List Str := ((regOf rs).map (·.1)).filter (· ≠ [])

/-- `list()` of a registered entry, and what is made of it (RESTProcess_epilogue.h:443-451): RESTProcess_epilogue.h:103-125
(classes and simple variables), RESTProcess_base.h:1043-1057, 1066-1071, 1092-1096 (smart pointers), 1588, 1598. -/
def nodeList (env : Env) : Node → List Str
  | .enums _ => []
  | .obj (.enum _ _ _ _) => []
  | .obj (.ptr a) => match env.target a with | some o => listed (regs [] o) | none => []
  | .obj o => listed (regs [] o)

mutual
/-- `process` of a registered entry: classes and simple variables, enumerations, smart pointers
(RESTProcess_epilogue.h:381-388, 399-407), `EnumerateEnumerators` (390-396). -/
def nodeProc (env : Env) : Nat → Node → Str → J → Mem → RO × Mem
  | 0, _, _, _, m => (.stuck, m)
  | _ + 1, .enums k, _, _, m => (.names (knames k), m)
  | _ + 1, .obj (.enum _ u k a), rest, args, m => enumProc env u k a rest args m
  | n + 1, .obj (.ptr a), rest, args, m =>
    match env.target a with
    | none => (.void, m)
    | some o => objProc env n o rest args m
  | n + 1, .obj (.var k a), rest, args, m => objProc env n (.var k a) rest args m
  | n + 1, .obj (.cls a ms), rest, args, m => objProc env n (.cls a ms) rest args m
/-- `RESTProcessObject<T>::process`: RESTProcess_base.h:448-470; with something left of the path
`mapAndProcess`, RESTProcess_epilogue.h:506-519. -/
def objProc (env : Env) : Nat → O → Str → J → Mem → RO × Mem
  | 0, _, _, _, m => (.stuck, m)
  | n + 1, o, rest, args, m =>
    if rest = [] then
      match args with
      | .null => (.ref o, m)
      | .arr [] => (.ref o, m)
      | .arr (j :: _) => after' (.ref o) (convO env n o j m)
      | j => after' (.ref o) (convO env n o j m)
    else regProc env n (regs [] o) rest args m
/-- `RESTProcess_t::process` (Verif.Rest). -/
def regProc (env : Env) : Nat → List (Str × Node) → Str → J → Mem → RO × Mem
  | 0, _, _, _, m => (.stuck, m)
  | n + 1, rs, query, args, m =>
    match process (regOf rs) query with
    | .process (.obj i _) tail =>
      match rs[i]? with
      | some (_, e) => nodeProc env n e tail args m
      | none => (.ub, m)
    | .process _ _ => (.ub, m)
    | .list (.obj i _) =>
      match rs[i]? with
      | some (_, e) => (.listing (nodeList env e), m)
      | none => (.ub, m)
    | .list _ => (.ub, m)
    | .enums _ | .signature _ | .type _ => (.about, m)
    | .outOfRange | .notFound => (.throw, m)
    | .stuck => (.stuck, m)
end

/-- A repository in which objects have been registered in order under names, and a query to it. -/
def query (env : Env) (n : Nat) (objs : List (Str × O)) (q : Str) (args : J) (m : Mem) : RO × Mem :=
  regProc env n (objs.flatMap fun e => regs e.1 e.2) q args m

/-- What the buffer made of a result of a simple variable shows: `r<<obj`, json_pack_base.h:249-320. -/
def showVar (lib : Lib) : VV → J
  | .int i => .int i
  | .bool x => .bool x
  | .real r => if r = lib.nan then .null else .real r
  | .str s => .str s

/-! ### Factories -/

/-- The outcome of calling a factory: the object is there and the call returns; an exception; or undefined
behaviour. -/
inductive FO
  | done
  | throw
  | ub
  deriving DecidableEq

/-- Calling the function `addFactory` registers: RESTProcess_epilogue.h:534-547.  The object is created,
`add`ed under its name, and the callback called: an empty `std::function`, which is what there is if none
was given (RESTProcess_base.h:417-418), throws.  If the name is that under which the factory itself is
registered, `add` destroys the function being executed, and the callback with it. -/
def factory (r : Reg) (factoryName name : Str) (callback : Bool) (id : Nat) : FO × Reg :=
  let r' := addObj r name id true
  (if name = factoryName then .ub else if callback then .done else .throw, r')

end Verif.Rest
