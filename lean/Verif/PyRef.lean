/-
References to Python objects held by PyObjectRef: pythonBuffer.h:123-147; what is made of a PythonBuffer as a plain pointer: 279, 290, 99-107; and
what reading a Python mapping or object as JSON does to the counts: 236-263.

`rc` is the number of references Python counts for an object; at 0 the object is gone, and to release it, or to make another reference to it, is
undefined.  What Python runs when an object goes is not modelled.
-/
namespace Verif.PyRef

abbrev Obj := Nat

/-- Variables of type PyObjectRef: outer `none` for one that has been destroyed, inner `none` for a null pointer. -/
structure S where
  rc : Obj → Nat
  vars : List (Option (Option Obj))

def upd (f : Obj → Nat) (o : Obj) (n : Nat) : Obj → Nat := fun x => if x = o then n else f x

/-- `Py_INCREF` -/
def incref (rc : Obj → Nat) (o : Obj) : Option (Obj → Nat) := if rc o = 0 then none else some (upd rc o (rc o + 1))

/-- `Py_DECREF` -/
def decref (rc : Obj → Nat) (o : Obj) : Option (Obj → Nat) := if rc o = 0 then none else some (upd rc o (rc o - 1))

/-- `Py_XDECREF` -/
def xdecref (rc : Obj → Nat) : Option Obj → Option (Obj → Nat)
  | none => some rc
  | some o => decref rc o

/-- What a program does.
* `made o`: a function of Python gives a new reference to `o`, which may be a new object
* `gone o`: the program releases a reference it has with `Py_DECREF`
* `dflt`, `own p`: constructors, 128-131 (another variable); `p` is a plain pointer
* `move y`: constructor from `std::move(y)`, 135-138
* `assign x y`: `x=std::move(y)`, 139-145
* `store x p`: `x=p`, by way of a temporary PyObjectRef, 129, 139-145, 132
* `release x`: 148
* `drop x`: destructor, 132 -/
inductive Op
  | made (o : Obj)
  | gone (o : Obj)
  | dflt
  | own (p : Option Obj)
  | move (y : Nat)
  | assign (x y : Nat)
  | store (x : Nat) (p : Option Obj)
  | release (x : Nat)
  | drop (x : Nat)

def get (l : List (Option (Option Obj))) (x : Nat) : Option (Option Obj) := (l[x]?).join

/-- One statement: pythonBuffer.h:123-149.  `none`: no defined behaviour. -/
def step (s : S) : Op → Option S
  | .made o => some { s with rc := upd s.rc o (s.rc o + 1) }
  | .gone o => (decref s.rc o).map fun rc => { s with rc := rc }
  | .dflt => some { s with vars := s.vars ++ [some none] }
  | .own p => some { s with vars := s.vars ++ [some p] }
  | .move y =>
    match get s.vars y with
    | none => none
    | some q => some { s with vars := s.vars.set y (some none) ++ [some q] }
  | .assign x y =>
    match get s.vars x, get s.vars y with
    | some p, some q => (xdecref s.rc p).map fun rc => ⟨rc, (s.vars.set x (some q)).set y (some none)⟩
    | _, _ => none
  | .store x p =>
    match get s.vars x with
    | none => none
    | some q => (xdecref s.rc q).map fun rc => ⟨rc, s.vars.set x (some p)⟩
  | .release x =>
    match get s.vars x with
    | none => none
    | some _ => some { s with vars := s.vars.set x (some none) }
  | .drop x =>
    match get s.vars x with
    | none => none
    | some p => (xdecref s.rc p).map fun rc => ⟨rc, s.vars.set x none⟩

def run : S → List Op → Option S
  | s, [] => some s
  | s, o :: os => (step s o).bind fun s => run s os

/-! ### Plain pointers to what a PythonBuffer holds -/

/-- `newPyObject(const PythonBuffer&)`: pythonBuffer.h:279, 290.  The PyObjectRef that getPyObject returns is converted to a pointer and destroyed. -/
def rawOf (rc : Obj → Nat) (o : Obj) : Option (Obj → Nat) := (incref rc o).bind fun rc => decref rc o

/-- `newPyObject(x)` for a sequence of PythonBuffers holding `l`: pythonBuffer.h:99-107; `PyList_SetItem` takes over the reference it is given.
The list is not counted here. -/
def listOf (rc : Obj → Nat) : List Obj → Option (Obj → Nat)
  | [] => some rc
  | o :: l => (rawOf rc o).bind fun rc => listOf rc l

/-- Python releases the items of a list that goes. -/
def listGone (rc : Obj → Nat) : List Obj → Option (Obj → Nat)
  | [] => some rc
  | o :: l => (decref rc o).bind fun rc => listGone rc l

/-! ### Reading an object -/

/-- One turn of the loop over a mapping with an entry of key `k`, value `v` and the text `t` of the key (`k` itself if it is a string):
pythonBuffer.h:243-249.  The pair is a tuple made for it and released; what reading the value itself does is not counted. -/
def mapItem (rc : Obj → Nat) (k v t : Obj) : Option (Obj → Nat) :=
  (incref rc k).bind fun rc =>                                    -- PySequence_GetItem(keyValue,0)
  (decref (upd rc t (rc t + 1)) t).bind fun rc =>                 -- keyRef
  (incref rc v).bind fun rc =>                                    -- PySequence_GetItem(keyValue,1)
  (incref rc v).bind fun rc => decref rc v                        -- PythonBuffer

/-- `get<json_pack_t>()` of a mapping: pythonBuffer.h:236-251. -/
def readMap (rc : Obj → Nat) : List (Obj × Obj × Obj) → Option (Obj → Nat)
  | [] => some rc
  | (k, v, t) :: l => (mapItem rc k v t).bind fun rc => readMap rc l

end Verif.PyRef
