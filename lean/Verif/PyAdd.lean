/-
`addPythonObject`: python_base.h:1160-1188.

Modules are those that Python can import, with what their dictionaries have for a name; importing one does not change them.  Objects are
numbers that stand for addresses, `ptr(&object)`.
-/
namespace Verif.PyAdd

abbrev Str := List UInt8

/-- The dictionary of a module. -/
abbrev Dict := Str → Option Nat
/-- What can be imported. -/
abbrev St := Str → Option Dict

/-- `path.rfind('.')`. -/
def rfind : Str → Option Nat
  | [] => none
  | c :: l =>
    match rfind l with
    | some i => some (i + 1)
    | none => if c = 46 then some 0 else none

/-- "__main__" -/
def main : Str := [95, 95, 109, 97, 105, 110, 95, 95]

/-- The names of the module and of the object: python_base.h:1175-1185. -/
def split (path : Str) : Str × Str :=
  match rfind path with
  | none => (main, path)
  | some i => (path.take i, path.drop (i + 1))

/-- `addPythonObject`; `none` is an exception: python_base.h:1186-1187. -/
def add (path : Str) (o : Nat) (s : St) : Option St :=
  match s (split path).1 with
  | none => none
  | some d =>
    some fun m => if m = (split path).1 then some fun n => if n = (split path).2 then some o else d n else s m

/-- A program: with an exception it ends. -/
def addAll : List (Str × Nat) → St → St × Bool
  | [], s => (s, true)
  | (p, o) :: l, s =>
    match add p o s with
    | some s' => addAll l s'
    | none => (s, false)

end Verif.PyAdd
