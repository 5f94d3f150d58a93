import Verif.RestFn
/-
What the REST interface lists as signatures of functions and objects, and what can be called and set:
RESTProcess_base.h:142-149, 452-470, 1159-1228, 1486-1492, 1520-1537, 1563-1589; RESTProcess_epilogue.h:59-103, 154-172, 187-211, 389-407, 440-442;
function.h:110-121, 329-391.

Functions return values.  Names of types are given by a function.
-/
namespace Verif.RestSig
open Verif.Rest
open Verif.RestFn
open Verif.Json (J)
open OMap

/-- How a parameter is passed: `T`, `const T&`, `T&`, `T&&`, `T*`. -/
inductive Mode
  | val
  | cref
  | lref
  | rref
  | ptr
  deriving DecidableEq

structure Par where
  t : CT
  m : Mode
  deriving DecidableEq

/-- `ArgAcceptable`: function.h:110-121; all the types can be default constructed and copied. -/
def Par.ok (p : Par) : Bool := p.m == .val || p.m == .cref

/-- Which `matches` is used: RESTProcess_base.h:1232-1330; 1232-1235 pointers, 1305-1309 references to const, 1327-1330 other references. -/
def Par.at' (p : Par) : AT := if p.ok = true then atOf p.t else .none'

structure Meth (R : Type) where
  /-- a member function, neither static nor free, of an object -/
  member : Bool
  /-- the object is const -/
  onConst : Bool
  /-- a const member function -/
  cst : Bool
  /-- it returns a `std::unique_ptr` -/
  uptr : Bool
  ret : Str
  ps : List Par
  run : List V → R

/-- `ConstCorrect`: function.h:329-333. -/
def Meth.constOk {R : Type} (f : Meth R) : Bool := !f.member || !f.onConst || f.cst

/-- The signature: RESTProcess_epilogue.h:154-172; which function it is is given by a number. -/
def fnOf {R : Type} (nm : Par → Str) (tab : Nat → Meth R) (i : Nat) : Fn := ⟨(tab i).ret, (tab i).ps.map nm, i⟩

/-- `process` of a function: RESTProcess_base.h:1486-1487 and 1194-1208, 1224-1228 (unacceptable parameters), 1527-1530 (`unique_ptr`);
function.h:350-368 (methods that are not const of const objects). -/
def callM {R : Type} (fp : FP) (f : Meth R) (args : J) : Got R :=
  if f.uptr = true then .refused
  else if f.ps.all Par.ok = false then .refused
  else if f.constOk = false then .refused
  else callOne fp ⟨f.ps.map (·.t), f.run⟩ args

/-- The kinds of objects: those behind `RESTProcessObject`, `RESTProcessSequence` and `RESTProcessAssociativeContainer`; smart pointers; weak
pointers; enumerations. -/
inductive Kind
  | object
  | ptr
  | weak
  | enum
  deriving DecidableEq

/-- An object: the names of its type and of what it points to; is it, or what it points to, const; is it a null pointer; the names of the
enumerators. -/
structure Ob where
  kind : Kind
  tn : Str
  elem : Str
  cst : Bool
  null : Bool
  keys : List Str

/-- `signature()` of objects: RESTProcess_epilogue.h:58-97. -/
def obSigs (o : Ob) : List (Str × List Str) :=
  match o.kind with
  | .object | .weak => [(o.tn, []), (o.tn, [o.tn])]
  | .ptr => [(o.elem, []), (o.elem, [o.elem])]
  | .enum => [(b "std::string", []), (b "std::string", [b "std::string"])]

/-- `signature()`: RESTProcess_base.h:142-149, 1489, 1531-1532. -/
def sigs (obs : Nat → Ob) : Ent → List (Str × List Str)
  | .fn f => [(f.ret, f.args)]
  | .over fs => fs.map fun f => (f.ret, f.args)
  | .obj i _ => obSigs (obs i)

/-- A request ending in `.@signature`: RESTProcess_epilogue.h:440-442.  `none`: it is something else. -/
def listing (obs : Nat → Ob) (r : Reg) (q : Str) : Option (List (Str × List Str)) :=
  match process r q with
  | .signature e => some (sigs obs e)
  | _ => none

/-- A request that leads to functions: RESTProcess_base.h:1486-1487, RESTProcess_epilogue.h:187-211.  `none`: it is something else. -/
def request {R : Type} (fp : FP) (tab : Nat → Meth R) (r : Reg) (q : Str) (args : J) : Option (Got R) :=
  match process r q with
  | .process (.fn f) [] => some (callM fp (tab f.id) args)
  | .process (.over fs) [] =>
    some (match choose (fun f : Fn => matchScore ((tab f.id).ps.map Par.at') args) fs with
      | .void => .void
      | .noMatch => .noMatch
      | .ambiguous => .ambiguous
      | .call f => callM fp (tab f.id) args)
  | _ => none

/-- What is done with an object: nothing, it is set from a value, an exception; there is none. -/
inductive Done
  | same
  | set (j : J)
  | throw
  | void

/-- Assignment to an object, unless it is const: RESTProcess_base.h:454-469, 186-188 (const objects); RESTProcess_epilogue.h:216-231, 311-323. -/
def assign (cst : Bool) : J → Done
  | .null => .same
  | .arr [] => .same
  | .arr (j :: _) => if cst = true then .throw else .set j
  | j => if cst = true then .throw else .set j

/-- `process` of an object: pointers RESTProcess_epilogue.h:372-380, 398-407, enumerations RESTProcess_base.h:1568-1585. -/
def give (o : Ob) (args : J) : Done :=
  match o.kind with
  | .object => assign o.cst args
  | .ptr | .weak => if o.null = true then .void else assign o.cst args
  | .enum =>
    match args with
    | .str s => if o.cst = true ∨ s ∉ o.keys then .throw else .set (.str s)
    | .arr (.str s :: _) => if o.cst = true ∨ s ∉ o.keys then .throw else .set (.str s)
    | .arr (_ :: _) => .throw
    | _ => .same

/-- A request that leads to an object. -/
def requestOb (obs : Nat → Ob) (r : Reg) (q : Str) (args : J) : Option Done :=
  match process r q with
  | .process (.obj i _) [] => some (give (obs i) args)
  | _ => none

end Verif.RestSig
