/-
isa_base.h: the inheritance descriptor.
-/
namespace Verif.Isa

/-- A class: its name stands for its `std::type_info`; `poly`: it has virtual functions; then its bases. -/
inductive Cls
  | mk (name : Nat) (poly : Bool) (bases : List Cls)
  deriving Repr

def Cls.name : Cls → Nat
  | .mk n _ _ => n

def Cls.poly : Cls → Bool
  | .mk _ p _ => p

def Cls.bases : Cls → List Cls
  | .mk _ _ b => b

/-- `typeid(x)` for a reference to a `c` in an object whose class is called `dyn`. -/
def typeid (dyn : Nat) (c : Cls) : Nat := if c.poly then dyn else c.name

mutual
/-- `isa(t,"",x)`: isa_base.h:37-46.  The descriptor generated for a class calls it for each base with an empty name
(classdesc.cc:444-446, 1583-1591), for members with another name, which does nothing. -/
def types (dyn : Nat) : Cls → List Nat
  | .mk n p bs => typeid dyn (.mk n p bs) :: typesOf dyn bs
def typesOf (dyn : Nat) : List Cls → List Nat
  | [] => []
  | b :: bs => types dyn b ++ typesOf dyn bs
end

/-- An expression: the class it is declared with and that of the object. -/
structure Ref where
  static : Cls
  dyn : Nat

/-- `isa(x,y)`: isa_base.h:69-76. -/
def isa (x y : Ref) : Bool := (types x.dyn x.static).contains (typeid y.dyn y.static)

end Verif.Isa
