import Verif.Rest
/-
`register` of a Python module made with CLASSDESC_PYTHON_MODULE: pythonBuffer.h:748-771, 786-816.  What it does to the names
of the module, to the registry behind it and to the reference counts.
-/
namespace Verif.PyReg
open Verif.Rest Verif.OMap

/-- Python objects by number; 0 is None. -/
abbrev Obj := Nat

/-- What `register` can tell about an object: a wrapper of something in C++; a string (its UTF-8 form), or one that has no
UTF-8 form; anything else. -/
inductive Kind
  | wrapper (e : Ent)
  | str (s : Str)
  | badStr
  | other

/-- Reference counts; the references the program holds in variables, lists and so on; the attributes of the module; its
registry. -/
structure St where
  rc : Obj → Int
  held : List Obj
  attrs : List (Str × Obj)
  reg : Reg

/-- `Py_INCREF`, `Py_DECREF`: pythonCAPI.h:50-58. -/
def St.inc (s : St) (o : Obj) : St := { s with rc := fun x => if x = o then s.rc x + 1 else s.rc x }
def St.dec (s : St) (o : Obj) : St := { s with rc := fun x => if x = o then s.rc x - 1 else s.rc x }

def get (k : Str) : List (Str × Obj) → Option Obj
  | [] => none
  | e :: l => if e.1 = k then some e.2 else get k l

def put (k : Str) (v : Obj) : List (Str × Obj) → List (Str × Obj)
  | [] => [(k, v)]
  | e :: l => if e.1 = k then (k, v) :: l else e :: put k v l

def del (k : Str) : List (Str × Obj) → List (Str × Obj)
  | [] => []
  | e :: l => if e.1 = k then l else e :: del k l

/-- `PyModule_AddObject(self,name,object)`, which takes over the caller's reference and releases what was there. -/
def St.addObject (s : St) (k : Str) (o : Obj) : St :=
  let s' := { s with attrs := put k o s.attrs }
  match get k s.attrs with
  | some old => s'.dec old
  | none => s'

/-- A `const char*`: up to the first zero. -/
def cstr (s : Str) : Str := s.takeWhile (· != 0)

/-- `registerObject`: pythonBuffer.h:748-771.  `kind` says what the objects are, `valid` that the module's name is one of
those in `registries()`.  The result, `none` for an exception. -/
def registerObject (kind : Obj → Kind) (valid : Bool) (args : List Obj) (s : St) : Option Obj × St :=
  if valid = false then (none, s)
  else
    match args with
    | [] => (none, s)
    | [_] => (none, s)
    | o :: a :: _ =>
      let s := s.inc o
      match kind o with
      | .wrapper e =>
        let s := s.inc a
        match kind a with
        | .str n =>
          let s := { s with reg := mput strLt (cstr n) e s.reg }
          let s := s.addObject (cstr n) o
          (some 0, s.inc o)
        | _ => (none, s)
      | _ => (none, s)

/-- What a Python program does: takes another reference to an object (or makes one), gives one up, calls `register` and
drops the result, deletes an attribute of the module. -/
inductive Op
  | hold (o : Obj)
  | drop (o : Obj)
  | register (args : List Obj)
  | delete (k : Str)

/-- Executing it.  The tuple of the arguments holds a reference to each of them during the call. -/
def step (kind : Obj → Kind) (valid : Bool) (s : St) : Op → St
  | .hold o => { s.inc o with held := o :: s.held }
  | .drop o => if o ∈ s.held then { s.dec o with held := s.held.erase o } else s
  | .register args =>
    let r := registerObject kind valid args (args.foldl St.inc s)
    let s := args.foldl St.dec r.2
    match r.1 with
    | some o => s.dec o
    | none => s
  | .delete k =>
    match get k s.attrs with
    | some o => { s.dec o with attrs := del k s.attrs }
    | none => s

def run (kind : Obj → Kind) (valid : Bool) (s : St) (ops : List Op) : St := ops.foldl (step kind valid) s

end Verif.PyReg
