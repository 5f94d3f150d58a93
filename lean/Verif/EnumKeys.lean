import Verif.OMap
/-
Enum symbol tables: classdesc.h:761-902, the tables written by the code
generator (classdesc.cc:250-290, 1427-1462), and the textual (un)packing of
enums (json_pack_base.h:470-489, xml_pack_base.h:183-187, xml_unpack_base.h:550-558).

Names are byte strings.  Enumerator values are integers; an enum has an
underlying type of 8, 16, 32 or 64 bits, signed or not, and the tables hold `int`
(32 bit).  Conversions wrap, as C++20 defines and every supported compiler does.
-/
namespace Verif.EnumKeys
open OMap

abbrev Str := List UInt8

inductive Width | w8 | w16 | w32 | w64
  deriving DecidableEq, Repr

/-- Underlying type of an enum. -/
structure Under where
  width : Width
  signed : Bool
  deriving DecidableEq, Repr

def Width.modulus : Width → Int
  | .w8 => 256
  | .w16 => 65536
  | .w32 => 4294967296
  | .w64 => 18446744073709551616

/-- Conversion of an integer to an integral type. -/
def cast (u : Under) (v : Int) : Int :=
  if u.signed then (v + u.width.modulus / 2) % u.width.modulus - u.width.modulus / 2
  else v % u.width.modulus

/-- The values an enum with this underlying type can hold. -/
def InRange (u : Under) (v : Int) : Prop :=
  if u.signed then -(u.width.modulus / 2) ≤ v ∧ v < u.width.modulus / 2
  else 0 ≤ v ∧ v < u.width.modulus

def int32 : Under := ⟨.w32, true⟩

/-- `EnumKeys<T>`: classdesc.h:773-777. -/
structure Keys where
  s2v : List (Str × Int)
  v2s : List (Int × Str)

def ilt (a b : Int) : Bool := decide (a < b)

/-- One turn of the constructor's loop, classdesc.h:781-785. -/
def addKey (k : Keys) (e : Str × Int) : Keys :=
  { s2v := mput strLt e.1 e.2 k.s2v, v2s := mput ilt e.2 e.1 k.v2s }

/-- `EnumKeys(const EnumKey* data, int size)`: classdesc.h:779-786. -/
def mkKeys (data : List (Str × Int)) : Keys := data.foldl addKey ⟨[], []⟩

/-- `keysData[]`: the generator writes `{"name",int(T::name)}` for every enumerator
in order of declaration (classdesc.cc:1444-1450, enum_keys filled at 271-282). -/
def keysData (decl : List (Str × Int)) : List (Str × Int) :=
  decl.map fun e => (e.1, cast int32 e.2)

/-- The static table for an enum declared as `decl` (classdesc.cc:1452-1457). -/
def table (decl : List (Str × Int)) : Keys := mkKeys (keysData decl)

/-- `T operator()(std::string key) const`: classdesc.h:787-791. -/
def ofName (u : Under) (k : Keys) (s : Str) : Int :=
  match mfind strLt s k.s2v with
  | some i => cast u i
  | none => cast u 0

/-- `std::string operator()(int val) const`: classdesc.h:792-797. -/
def nameOfInt (k : Keys) (v : Int) : Str :=
  match mfind ilt v k.v2s with
  | some s => s
  | none => []

/-- `std::string operator()(T val) const`: classdesc.h:798. -/
def nameOf (k : Keys) (v : Int) : Str := nameOfInt k (cast int32 v)

/-- `bool has(const std::string&) const`: classdesc.h:801. -/
def hasName (k : Keys) (s : Str) : Bool := (mfind strLt s k.s2v).isSome

/-- `bool has(T) const`: classdesc.h:800 (`v2s.count(val)` converts to int). -/
def hasValue (k : Keys) (v : Int) : Bool := (mfind ilt (cast int32 v) k.v2s).isSome

/-- `size()`: classdesc.h:804. -/
def ksize (k : Keys) : Nat := k.v2s.length

/-- Iterating `sbegin()`..`send()`: classdesc.h:810-823. -/
def knames (k : Keys) : List Str := k.v2s.map (·.2)

/-- Iterating `vbegin()`..`vend()`: classdesc.h:825-837. -/
def kvalues (u : Under) (k : Keys) : List Int := k.v2s.map fun e => cast u e.1

/-- `enumKey<T>(const std::string&)` as generated: classdesc.cc:1458-1460. -/
def enumKeyOfName (u : Under) (k : Keys) (s : Str) : Int := cast int32 (ofName u k s)

/-- `Enum_handle::operator std::string()`: classdesc.h:879-881. -/
def handleToString (k : Keys) (v : Int) : Str := nameOfInt k (cast int32 v)

/-- `Enum_handle::operator=(const std::string&)`: classdesc.h:886-887. -/
def handleAssign (u : Under) (k : Keys) (s : Str) : Int := cast u (enumKeyOfName u k s)

/-- `std::isspace` in the C locale. -/
def isSpace (c : UInt8) : Bool := c == 32 || (9 ≤ c && c ≤ 13)

/-- json_pack of an enum: json_pack_base.h:470-475 (the string that is written);
the same in xml_pack_base.h:183-187. -/
def textWrite (k : Keys) (v : Int) : Str := handleToString k v

/-- json_unpack of an enum from the string read: json_pack_base.h:478-488; the same in
xml_unpack_base.h:550-558. -/
def textRead (u : Under) (k : Keys) (s : Str) : Int :=
  handleAssign u k (s.filter fun c => !isSpace c)

/-- `Enum_handle::operator std::istream>>`: classdesc.h:890-897.  `i>>temp` skips leading
space and takes everything to the next space. -/
def streamRead (u : Under) (k : Keys) (s : Str) : Int :=
  handleAssign u k ((s.dropWhile isSpace).takeWhile fun c => !isSpace c)

end Verif.EnumKeys
