import Verif.OMap
/-
`classdesc::Factory<B,Type>`: factory.h:20-95.  `Key` is the Type parameter (a
string by default), `Ty` stands for the C++ type passed as template argument T;
an object created is identified with the dynamic type it has.
-/
namespace Verif.Factory
open OMap

variable {Key Ty : Type}

/-- `Fmap fmap`, factory.h:27-28: a map from names to creators; a `Creator<T>` is
represented by T (factory.h:30-34: `create` returns `new T()`). -/
abbrev Fmap (Key Ty : Type) := List (Key × Ty)

/-- Outcome of `create`. -/
inductive Created (Key Ty : Type)
  | object (t : Ty)
  | invalidType (k : Key)
  deriving DecidableEq, Repr

/-- `registerType<T>(t)`: factory.h:37-42. -/
def registerType (lt : Key → Key → Bool) (m : Fmap Key Ty) (t : Key) (ty : Ty) : Fmap Key Ty :=
  minsert lt t ty m

/-- `create(t)`: factory.h:75-82. -/
def create (lt : Key → Key → Bool) (m : Fmap Key Ty) (t : Key) : Created Key Ty :=
  match mfind lt t m with
  | none => .invalidType t
  | some ty => .object ty

/-- `types()`: factory.h:85-91. -/
def types (m : Fmap Key Ty) : List Key := m.map (·.1)

/-- A factory after a sequence of registrations. -/
def registerAll (lt : Key → Key → Bool) (regs : List (Key × Ty)) : Fmap Key Ty :=
  regs.foldl (fun m r => registerType lt m r.1 r.2) []

end Verif.Factory
