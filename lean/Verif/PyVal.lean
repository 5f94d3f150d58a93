import Verif.Python
/-
C++ values given to Python and taken back: `b<<x`, `PythonBuffer(x)` and `b>>y` of pythonBuffer.h:53-120, 148-207, 208-214,
269-276, 292-406, for numbers, characters, texts, enums and sequences of them.

Simplified: a sequence is a std::vector or std::deque; `long` has 64 bits and `char` is signed; floating point numbers are codes
of doubles, and an int taken as one is converted by a function given from outside.
-/
namespace Verif.PyVal
open Verif.EnumKeys Verif.Python

/-- C++ types: `enm` an unscoped enum outside of namespace classdesc, with the table of its names; `arr` is std::array. -/
inductive Ty
  | bool
  | char
  | int (u : Under)
  | real
  | str
  | enm (u : Under) (k : Keys)
  | seq (t : Ty)
  | arr (t : Ty)

/-- Their values; those of a `seq` or an `arr` are `seq`. -/
inductive V
  | bool (b : Bool)
  | char (c : UInt8)
  | int (i : Int)
  | real (r : Nat)
  | str (s : Str)
  | enm (i : Int)
  | seq (l : List V)

def long : Under := ⟨.w64, true⟩

/-- A `char` as a number: pythonBuffer.h:57, `char` is signed. -/
def charInt (c : UInt8) : Int := if c.toNat < 128 then c.toNat else (c.toNat : Int) - 256

/-- `PyUnicode_FromString(x.c_str())`: pythonBuffer.h:60; a null pointer for bytes that are not UTF-8. -/
def newStr (utf8 : Str → Bool) (s : Str) : Option PyT := if utf8 (cstr s) then some (.str (cstr s)) else none

/-- All of them, or none. -/
def allSome {α : Type} : List (Option α) → Option (List α)
  | [] => some []
  | some a :: l => (allSome l).map (a :: ·)
  | none :: _ => none

mutual
/-- `newPyObject(x[i])` within a sequence: pythonBuffer.h:99-107.  What the name means there is what has been declared before
it, 55-97 and the function itself: for an enum only `newPyObject(const bool&)` will do.  `none`: a null pointer
in the list. -/
def inner (utf8 : Str → Bool) : V → Option PyT
  | .bool b => some (.bool b)
  | .char c => some (.int (charInt c))
  | .int i => some (.int (cast long i))
  | .real r => some (.float r)
  | .str s => newStr utf8 s
  | .enm i => some (.bool (i != 0))
  | .seq l => (innerL utf8 l).map .list
def innerL (utf8 : Str → Bool) : List V → Option (List PyT)
  | [] => some []
  | v :: l => (inner utf8 v).bind fun p => (innerL utf8 l).map (p :: ·)
end

/-- `PythonBuffer(x)`: pythonBuffer.h:167-168, 55-60, 99-119; an enum becomes the text its JSON form is, 112-119 and
json_pack_base.h:470-475. -/
def ctor (utf8 : Str → Bool) : Ty → V → Option PyT
  | .enm _ k, .enm i => newStr utf8 (textWrite k i)
  | _, v => inner utf8 v

/-- `b<<x`: pythonBuffer.h:296-297, 306-310, 318-321, 330-333, 352-362; an element of a sequence is given by push_back,
269-276, which makes a PythonBuffer of it.  `none`: a null pointer is used as an object. -/
def shl (utf8 : Str → Bool) : Ty → V → Option PyT
  | .char, .char c => newStr utf8 [c]
  | .enm _ k, .enm i => newStr utf8 (nameOf k i)
  | .seq t, .seq l => (allSome (l.map (ctor utf8 t))).map .list
  | .arr t, .seq l => (allSome (l.map (ctor utf8 t))).map .list
  | t, v => ctor utf8 t v

/-- `PyLong_AsLongLong`: pythonBuffer.h:209-210; -1 for what is not a number. -/
def getInt : PyT → Int
  | .bool b => if b then 1 else 0
  | .int i => asLongLong i
  | _ => -1

/-- `PyFloat_AsDouble`: pythonBuffer.h:211-212; -1 for what is not a number. -/
def getReal (ofInt : Int → Nat) : PyT → Nat
  | .float r => r
  | .int i => ofInt i
  | .bool b => ofInt (if b then 1 else 0)
  | _ => ofInt (-1)

/-- `get<string>()`: pythonBuffer.h:213-215; a std::string of a null pointer is refused with an exception. -/
def getStr : PyT → R Str
  | .str s => .ok (cstr s)
  | _ => .throw

/-- `b>>x` into a variable holding `old`: pythonBuffer.h:293-294, 300-304, 312-316, 324-328, 336-350.  `resize` and `push_back` do
nothing to a std::array, classdesc.h:459-489. -/
def shr (ofInt : Int → Nat) : Ty → PyT → V → R V
  | .bool, p, _ => .ok (.bool (getInt p != 0))
  | .char, p, _ => (getStr p).bind fun s => .ok (.char (s.headD 0))
  | .int u, p, _ => .ok (.int (cast u (getInt p)))
  | .real, p, _ => .ok (.real (getReal ofInt p))
  | .str, p, _ => (getStr p).bind fun s => .ok (.str s)
  | .enm u k, p, _ => (getStr p).bind fun s => .ok (.enm (ofName u k s))
  | .seq t, .list l, _ => (mapR (fun p => shr ofInt t p (.seq [])) l).bind fun vs => .ok (.seq vs)
  | .seq _, _, _ => .ok (.seq [])
  | .arr t, .list l, old => (mapR (fun p => shr ofInt t p (.seq [])) l).bind fun _ => .ok old
  | .arr _, _, old => .ok old

end Verif.PyVal
