import Verif.OMap

/-! Which classes and attributes Python has after a class was given to it: python_base.h, python_epilogue.h. -/

namespace Verif.PyDef

abbrev Str := List UInt8

/-- A member as the descriptor of a class gives it to `python_type`.  Types are named by numbers. -/
inductive Mem
  /-- A variable that is no array (python_base.h:860-869). -/
  | obj (n : Str) (t : Nat)
  /-- An array, with the type of what is left when all dimensions are taken off (871-880). -/
  | arr (n : Str) (t : Nat)
  /-- A method the result of which is no pointer (819-844). -/
  | fn (n : Str) (args : List Nat) (ret : Nat)
  /-- A constructor (1107-1122, 945-951). -/
  | ctor (args : List Nat)
  /-- A static member (938-943, 1093-1105), or a static function (916-927), and the types it has or takes and
  returns. -/
  | static (n : Str) (ts : List Nat)
  /-- A method returning a pointer (846-849, 929-936), or a member of an excluded or incomplete type (907-913). -/
  | skipped

/-- Types: of classes with descriptors, sequences, maps, shared pointers, enumerations, and all others (python_base.h:
35-55, 998-1028, 1058-1080, 1198-1202, 1216-1222). -/
inductive Ty
  | prim
  | enum
  | cls (abs : Bool) (bases : List Nat) (ms : List Mem)
  | seq (v : Nat)
  | map (k v : Nat)
  | ptr (v : Nat)

/-- A program. -/
abbrev Env := List Ty

def Env.at (env : Env) (t : Nat) : Ty := (env[t]?).getD .prim

def Env.abs (env : Env) (t : Nat) : Bool :=
  match env.at t with
  | .cls a _ _ => a
  | _ => false

/-- For which types `classDefStarted` has been called; which classes there are in Python; their attributes; which have
`completed` set; which enumerations there are. -/
structure St where
  started : List Nat
  regs : List Nat
  defs : List (Nat × Str)
  done : List Nat
  enums : List Nat

def St.init : St := ⟨[], [], [], [], []⟩

/-- `auto& c=getClass<C>(); if (!c.completed) c.def(name,...);` -/
def St.add (s : St) (c : Nat) (n : Str) : St :=
  { s with regs := c :: s.regs, defs := if c ∈ s.done then s.defs else (c, n) :: s.defs }

def St.adds (s : St) (c : Nat) (ns : List Str) : St := ns.foldl (fun s n => s.add c n) s

def b (s : String) : Str := s.toUTF8.toList

def seqNames : List Str := [b "__len__", b "__getitem__", b "__setitem__", b "assign", b "__init__", b "constructor"]
def mapNames : List Str := [b "__len__", b "__getitem__", b "__setitem__", b "__iter__"]

/-- Calls: `python<T>`; `if (!classDefStarted<T>()) defineClass<T>()`; the descriptor of `d` for the class `c`; one
member in it; `getClass<T>().completed=true`. -/
inductive Task
  | ty (t : Nat)
  | one (t : Nat)
  | into (c d : Nat)
  | mem (c d : Nat) (m : Mem)
  | finish (t : Nat)

/-- What a call does itself, and the calls it makes, in order.  `python<T>`: python_epilogue.h:21-31 for classes,
python_base.h:998-1013 for sequences (`python` of the reference that `getItem` returns does nothing), 1015-1028 for maps
(without the class of the iterator), 1058-1080 and 1216-1222 for shared pointers, 1198-1202 for enumerations; what
derives from a sequence or a map has their attributes.  `DefineArgClasses`: 753-781, arguments from the last to the
first, then the result; `defineClass` does nothing for abstract classes: 961-968.  The descriptor: first the bases
(`python<T,Base>`, python_epilogue.h:21-31), then the members.  The elements of an array are described without
`classDefStarted` (python_base.h:120-127, python_epilogue.h:33-45; the classes `ArrayGet` are left out).  A constructor
is given to the class the descriptor is of, not to the one derived from it (1111-1122). -/
def step (env : Env) (k : Task) (s : St) : List Task × St :=
  match k with
  | .ty t =>
    match env.at t with
    | .prim => ([], s)
    | .enum => ([], { s with enums := t :: s.enums })
    | .cls _ _ _ => ([.into t t, .finish t], s)
    | .seq _ => ([.into t t], s)
    | .map _ _ => ([.into t t], s)
    | .ptr _ => ([.into t t, .finish t], s)
  | .one t =>
    if t ∈ s.started then ([], s)
    else (if env.abs t = true then [] else [.ty t], { s with started := t :: s.started })
  | .into c d =>
    match env.at d with
    | .cls _ bs ms => (bs.map (.into c) ++ ms.map (.mem c d), s)
    | .seq v => ([.ty v], s.adds c seqNames)
    | .map k v => ([.ty v, .ty k], s.adds c mapNames)
    | .ptr v => ([.ty v], s.add d (b "target"))
    | _ => ([], s)
  | .mem c d m =>
    match m with
    | .obj n t => ([.one t], s.add c n)
    | .arr n t => ([.ty t], s.add c n)
    | .fn n args ret => ((args.reverse ++ [ret]).map .one, s.add c n)
    | .ctor args => if env.abs d = true then ([], s) else (args.reverse.map .one, s.add d (b "__init__"))
    | .static n _ => ([], s.add c n)
    | .skipped => ([], s)
  | .finish t => ([], { s with regs := t :: s.regs, done := t :: s.done })

/-- The calls that are left, the next first, are made one after the other, each followed by those it makes itself; none
if that is not over after `n` calls. -/
def run (env : Env) : Nat → List Task → St → Option St
  | _, [], s => some s
  | 0, _ :: _, _ => none
  | n + 1, k :: ks, s => run env n ((step env k s).1 ++ ks) (step env k s).2

end Verif.PyDef
