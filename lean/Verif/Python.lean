import Verif.Json
/-
The Python interface: pythonBuffer.h.  Conversions between JSON and Python objects (53-120, 197-267, 392-406),
and the reference counts of what PythonBuffer and CppWrapper hold (123-196, 269-291, 480-494, 592-604).

Python's own behaviour is taken from the documentation of its C API.  Python integers are unbounded, strings are
sequences of bytes (their UTF-8 form), floats codes of doubles.
-/
namespace Verif.Python
open Verif.OMap Verif.Json
open Verif.EnumKeys (Str)

/-! ### Values -/

/-- What the Python C API's type tests tell about an object: None, bool, int, float, str (`badStr`: one without a UTF-8
form), a sequence that is not a string, a mapping with its items, anything else with the attributes `dir` lists. -/
inductive Node (α : Type)
  | none
  | bool (b : Bool)
  | int (i : Int)
  | float (r : Nat)
  | str (s : Str)
  | badStr
  | seq (l : List α)
  | dict (l : List (α × α))
  | other (attrs : List (Str × α))

/-- Outcomes: `throw` an exception, `deep` the native stack is exhausted. -/
inductive R (α : Type)
  | ok (a : α)
  | throw
  | deep
  deriving DecidableEq

def R.bind {α β : Type} : R α → (α → R β) → R β
  | .ok a, f => f a
  | .throw, _ => .throw
  | .deep, _ => .deep

/-- `std::string s=p` from a `const char*`: up to the first zero; pythonBuffer.h:60, 71, 214, 247. -/
def cstr (s : Str) : Str := s.takeWhile (· != 0)

/-- `PyLong_AsLongLong`: -1 with an error pending, which nobody looks at, when it does not fit; pythonBuffer.h:209. -/
def asLongLong (i : Int) : Int := if -(2 ^ 63) ≤ i ∧ i < 2 ^ 63 then i else -1

/-- One after the other: pythonBuffer.h:233-234. -/
def mapR {α β : Type} (f : α → R β) : List α → R (List β)
  | [] => .ok []
  | a :: l => (f a).bind fun b => (mapR f l).bind fun bs => .ok (b :: bs)

/-- `obj[key]=value` for one after the other, a std::map: pythonBuffer.h:243-249, 254-260. -/
def fill {α : Type} (key : α → R Str) (val : α → R J) : List (Str × J) → List α → R (List (Str × J))
  | m, [] => .ok m
  | m, a :: l => (key a).bind fun k => (val a).bind fun j => fill key val (mput strLt k j m) l

/-- The text of a key: `PyObject_Str`, then its UTF-8 form up to the first zero; `shw` is Python's `str`;
pythonBuffer.h:246-247. -/
def keyText {α : Type} (view : α → Node α) (shw : α → Str) (o : α) : R Str :=
  match view o with
  | .str s => .ok (cstr s)
  | .badStr => .throw
  | _ => .ok (cstr (shw o))

/-- `get<json_pack_t>()`: pythonBuffer.h:197-205, 216-267.  The first number is the depth of recursion the stack allows. -/
def getJson {α : Type} (view : α → Node α) (shw : α → Str) : Nat → α → R J
  | 0, _ => .deep
  | n + 1, o =>
    match view o with
    | .none => .ok .null
    | .bool b => .ok (.bool b)
    | .int i => .ok (.int (asLongLong i))
    | .float r => .ok (.real r)
    | .str s => .ok (.str (cstr s))
    | .badStr => .throw
    | .seq l => (mapR (getJson view shw n) l).bind fun js => .ok (.arr js)
    | .dict l => (fill (fun e => keyText view shw e.1) (fun e => getJson view shw n e.2) [] l).bind fun m => .ok (.obj m)
    | .other l => (fill (fun e => .ok (cstr e.1)) (fun e => getJson view shw n e.2) [] l).bind fun m => .ok (.obj m)

/-- Python objects that JSON is turned into. -/
inductive PyT
  | none
  | bool (b : Bool)
  | int (i : Int)
  | float (r : Nat)
  | str (s : Str)
  | list (l : List PyT)
  | dict (l : List (Str × PyT))

/-- The type tests on them. -/
def PyT.view : PyT → Node PyT
  | .none => .none
  | .bool b => .bool b
  | .int i => .int i
  | .float r => .float r
  | .str s => .str s
  | .list l => .seq l
  | .dict l => .dict (l.map fun e => (.str e.1, e.2))

/-- `get_int64()` of a JSON integer, which is held as a signed or an unsigned 64 bit number: pythonBuffer.h:87. -/
def int64 (i : Int) : Int := if i < 2 ^ 63 then i else i - 2 ^ 64

/-- `PyDict_SetItemString`: an item with the key is replaced where it stands, another is appended. -/
def setItem {α : Type} (k : Str) (v : α) : List (Str × α) → List (Str × α)
  | [] => [(k, v)]
  | e :: l => if e.1 = k then (k, v) :: l else e :: setItem k v l

mutual
/-- `newPyObjectJson`: pythonBuffer.h:53-61, 64-95; `utf8` says which byte sequences Python accepts.  `none`: a null pointer
has been put where an object is expected. -/
def newPy (utf8 : Str → Bool) : J → Option PyT
  | .null => some .none
  | .bool b => some (.bool b)
  | .int i => some (.int (int64 i))
  | .real r => some (.float r)
  | .str s => if utf8 (cstr s) then some (.str (cstr s)) else none
  | .arr l => (newPyL utf8 l).map .list
  | .obj m => (newPyM utf8 [] m).map .dict
def newPyL (utf8 : Str → Bool) : List J → Option (List PyT)
  | [] => some []
  | j :: l =>
    match newPy utf8 j, newPyL utf8 l with
    | some p, some ps => some (p :: ps)
    | _, _ => none
def newPyM (utf8 : Str → Bool) (d : List (Str × PyT)) : List (Str × J) → Option (List (Str × PyT))
  | [] => some d
  | (k, j) :: l =>
    if utf8 (cstr k) then
      match newPy utf8 j with
      | some p => newPyM utf8 (setItem (cstr k) p d) l
      | none => none
    else none
end

/-- `b<<x` for an object of a class, whose JSON form is `j`, `write` being json5_parser's: pythonBuffer.h:392-406. -/
def shiftOut (utf8 : Str → Bool) (write : J → Str) (j : J) : Option PyT := newPy utf8 (.str (write j))

/-! ### Reference counts -/

/-- Python objects by number; 0 is None. -/
abbrev Obj := Nat

/-- Reference counts, what each PythonBuffer variable holds, and the attributes set on a wrapper. -/
structure H where
  rc : Obj → Int
  buf : Nat → Option Obj
  attr : Nat → Option Obj

def H.inc (h : H) (o : Obj) : H := { h with rc := fun x => if x = o then h.rc x + 1 else h.rc x }
def H.dec (h : H) (o : Obj) : H := { h with rc := fun x => if x = o then h.rc x - 1 else h.rc x }
def H.set (h : H) (s : Nat) (o : Option Obj) : H := { h with buf := fun x => if x = s then o else h.buf x }
def H.setA (h : H) (s : Nat) (o : Option Obj) : H := { h with attr := fun x => if x = s then o else h.attr x }

/-- What a program does with PythonBuffer variables and the attributes of a wrapper.
* `dflt s`: default constructor, pythonBuffer.h:155
* `wrap s o`: from a `PyObject*` that somebody else owns, 173-179; `wrapNull s`: from a null pointer
* `fresh s o`: from a value, for which a new object has been made, 170-172
* `copy s t`, `assign s t`: 183-185
* `drop s`: destructor, 181
* `take s`: getPyObject, the new reference going to the caller, 279
* `items l`: array() of a list with items l, and the result gone again, 188-196
* `setattr k o`: setAttro called by Python for `w.k = o` on an object somebody else owns, 592-604
* `delattr k`: … for `del w.k`
* `retNone`: Python calls insert or erase and releases what it got, 480-494 -/
inductive Op
  | dflt (s : Nat)
  | wrap (s : Nat) (o : Obj)
  | wrapNull (s : Nat)
  | fresh (s : Nat) (o : Obj)
  | copy (s t : Nat)
  | assign (s t : Nat)
  | drop (s : Nat)
  | take (s : Nat)
  | items (l : List Obj)
  | setattr (k : Nat) (o : Obj)
  | delattr (k : Nat)
  | retNone

/-- `Py_XDECREF` of what an attribute holds. -/
def H.decA (h : H) (k : Nat) : H :=
  match h.attr k with
  | none => h
  | some o => h.dec o

/-- Executing an operation. -/
def step (h : H) : Op → H
  | .dflt s => (h.inc 0).set s (some 0)
  | .wrap s o => (h.inc o).set s (some o)
  | .wrapNull s => h.set s (some 0)
  | .fresh s o => (h.inc o).set s (some o)
  | .copy s t =>
    match h.buf t with
    | none => h
    | some o => (h.inc o).set s (some o)
  | .assign s t =>
    match h.buf t with
    | none => h
    | some o => (h.set s (some o)).inc o
  | .drop s =>
    match h.buf s with
    | none => h
    | some o => (h.dec o).set s none
  | .take s =>
    match h.buf s with
    | none => h
    | some o => h.inc o
  -- PySequence_GetItem returns a new reference, the constructor makes another, the destructor releases one
  | .items l => l.foldl (fun h o => ((h.inc o).inc o).dec o) h
  | .setattr k o => (h.decA k).setA k (some o)
  | .delattr k => (h.decA k).setA k none
  | .retNone => h.dec 0

def run (h : H) (ops : List Op) : H := ops.foldl step h

end Verif.Python
