/-
Type identifiers and the factory of the object hierarchy, and shared pointers into it: object.h.

Classes are numbers.  Each class derived through the template `Object` has its own static identifier, given out on first
use.  The contents of objects are written and read by functions that are parameters.
-/
namespace Verif.Object

abbrev Cls := Nat

/-- The static identifiers of the classes (object.h:81; `none` is -1), and the slots of factory() (19-25; `none` a null
pointer). -/
structure St where
  ids : Cls → Option Nat
  slots : List (Option Cls)

/-- When the program starts. -/
def start : St := ⟨fun _ => none, []⟩

/-- `factory().resize(t+1)` when needed, `factory()[t]=o`: object.h:40-45. -/
def place (slots : List (Option Cls)) (t : Nat) (c : Cls) : List (Option Cls) :=
  (slots ++ List.replicate (t + 1 - slots.length) none).set t (some c)

/-- `type()` on an object of class c: object.h:80-88.  `register_with_factory` calls `type()` again, by when the
identifier is set. -/
def typeOf (st : St) (c : Cls) : Nat × St :=
  match st.ids c with
  | some t => (t, st)
  | none =>
    let t := st.slots.length
    (t, ⟨fun x => if x = c then some t else st.ids x, place st.slots t c⟩)

/-- `Register<T>`: object.h:40-45, 54-58. -/
def register (st : St) (c : Cls) : St :=
  let (t, st') := typeOf st c
  { st' with slots := place st'.slots t c }

/-- `register_with_factory` of an object of a class that defines `type()` itself, as a constant t≥0: object.h:40-45. -/
def registerFixed (st : St) (c : Cls) (t : Nat) : St := { st with slots := place st.slots t c }

/-- Outcomes. -/
inductive R (α : Type)
  | ok (a : α)
  | throw
  | ub
  deriving DecidableEq

/-- `object::create`, the assertion not compiled in: object.h:49-52; the class of the object created. -/
def create (st : St) (t : Int) : R Cls :=
  if t < 0 then .ub else
  match st.slots[t.toNat]? with
  | some (some c) => .ok c
  | _ => .ub

/-- How the objects of each class are written and read. -/
structure Body (V : Type) where
  enc : Cls → V → List UInt8
  dec : Cls → List UInt8 → Option (V × List UInt8)

/-- A stream: identifiers are integers, the rest bytes. -/
structure Packed where
  id : Int
  rest : List UInt8

/-- A shared pointer: null, or an object of a class with its contents. -/
abbrev Ptr (V : Type) := Option (Cls × V)

/-- pack: object.h:105-116. -/
def pack {V : Type} (b : Body V) (st : St) : Ptr V → Packed × St
  | none => (⟨0, []⟩, st)
  | some (c, v) =>
    let (t, st') := typeOf st c
    (⟨t + 1, b.enc c v⟩, st')

/-- unpack into a pointer that holds `a`, `isa c` telling whether class c derives from the pointer's type:
object.h:118-134. -/
def unpack {V : Type} (b : Body V) (isa : Cls → Bool) (st : St) (p : Packed) (a : Ptr V) : R (Ptr V) :=
  if p.id = 0 then .ok a
  else
    match create st (p.id - 1) with
    | .ok c =>
      if isa c then
        match b.dec c p.rest with
        | some (v, _) => .ok (some (c, v))
        | none => .throw
      else .ub
    | .throw => .throw
    | .ub => .ub

end Verif.Object
