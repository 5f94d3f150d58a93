/-
The numbers in a machine independent buffer: the filters chosen for each type (xdr_pack.cc:76-147, pack_base.h:62-86) and what they do,
on machines of different kinds.

The filters are those of the XDR library, taken from its documentation and RFC 4506: an int and all that is smaller takes four bytes, most
significant first, a hyper eight; the filters for long are four bytes as well.  Libraries differ in what they do with a long that does not fit
in four bytes: return false, or encode its low four bytes.
-/
namespace Verif.XdrNum

abbrev Bytes := List UInt8

/-- What differs between machines: the order of bytes, whether char is signed, and the sizes of long and wchar_t and whether the latter is
signed. -/
structure Machine where
  big : Bool
  charSigned : Bool
  long8 : Bool
  wchar4 : Bool
  wcharSigned : Bool

/-- The fundamental types. -/
inductive T
  | bool | char | schar | uchar | wchar | short | ushort | int | uint | long | ulong | llong | ullong | float | double | ldouble
  deriving DecidableEq, Repr

/-- The filters. -/
inductive F
  | char | uchar | short | ushort | int | uint | long | ulong | hyper | uhyper | float | double
  deriving DecidableEq, Repr

/-- `XDR_filter`: xdr_pack.cc:76-147; none is the null pointer. -/
def filter : T → Option F
  | .bool => some .char
  | .char => some .char
  | .schar => some .char
  | .uchar => some .uchar
  | .wchar => some .uint
  | .int => some .int
  | .uint => some .uint
  | .short => some .short
  | .ushort => some .ushort
  | .long => some .long
  | .ulong => some .ulong
  | .llong => some .hyper
  | .ullong => some .uhyper
  | .float => some .float
  | .double => some .double
  | .ldouble => none

/-- Bytes of an object, from its lowest address. -/
def size (m : Machine) : T → Nat
  | .bool | .char | .schar | .uchar => 1
  | .wchar => if m.wchar4 then 4 else 2
  | .short | .ushort => 2
  | .int | .uint | .float => 4
  | .long | .ulong => if m.long8 then 8 else 4
  | .llong | .ullong | .double => 8
  | .ldouble => 16

/-- The size of what a filter's pointer points to. -/
def csize (m : Machine) : F → Nat
  | .char | .uchar => 1
  | .short | .ushort => 2
  | .int | .uint | .float => 4
  | .long | .ulong => if m.long8 then 8 else 4
  | .hyper | .uhyper | .double => 8

/-- Whether that is signed. -/
def csigned (m : Machine) : F → Bool
  | .char => m.charSigned
  | .short | .int | .long | .hyper => true
  | _ => false

/-- The bytes a filter takes in the stream, and whether they are a signed number. -/
def wire : F → Nat
  | .hyper | .uhyper | .double => 8
  | _ => 4

def wsigned : F → Bool
  | .char | .short | .int | .long | .hyper => true
  | _ => false

/-- The lowest `n` bytes of a number, least significant first. -/
def le : Nat → Nat → Bytes
  | 0, _ => []
  | n + 1, k => UInt8.ofNat (k % 256) :: le n (k / 256)

def nat : Bytes → Nat
  | [] => 0
  | c :: l => c.toNat + 256 * nat l

/-- The representation of a number in `n` bytes (two's complement). -/
def rep (big : Bool) (n : Nat) (v : Int) : Bytes :=
  let l := le n (v % (256 ^ n : Nat)).toNat
  if big then l.reverse else l

/-- The number represented by some bytes. -/
def num (big signed : Bool) (l : Bytes) : Int :=
  let u : Int := nat (if big then l.reverse else l)
  if signed ∧ ((256 ^ l.length : Nat) : Int) ≤ 2 * u then u - (256 ^ l.length : Nat) else u

/-- The outcome of a call. -/
inductive Out (α : Type)
  | ok (a : α)
  | throw
  | ub
  deriving DecidableEq, Repr

/-- Does a number fit? -/
def fits (signed : Bool) (n : Nat) (v : Int) : Bool :=
  if signed then -((256 ^ n : Nat) : Int) ≤ 2 * v && 2 * v < (256 ^ n : Nat) else 0 ≤ v && v < (256 ^ n : Nat)

/-- A filter encoding the object at an address; of an object smaller than what it reads the rest is out of bounds.  `strict`: the library
refuses numbers that do not fit. -/
def encode (strict : Bool) (m : Machine) (f : F) (obj : Bytes) : Out Bytes :=
  if obj.length < csize m f then .ub
  else
    let v := num m.big (csigned m f) (obj.take (csize m f))
    if wire f < csize m f ∧ strict ∧ fits (wsigned f) (wire f) v = false then .throw
    else .ok (rep true (wire f) v)

/-- A filter decoding to the object at an address. -/
def decode (m : Machine) (f : F) (w obj : Bytes) : Out Bytes :=
  if obj.length < csize m f then .ub
  else .ok (rep m.big (csize m f) (num true (wsigned f) w) ++ obj.drop (csize m f))

/-- append of a number, up to the bytes put in the stream: xdr_pack.cc:198-199. -/
def put (strict : Bool) (m : Machine) (t : T) (obj : Bytes) : Out Bytes :=
  match filter t with
  | none => .throw
  | some f => encode strict m f obj

/-- popoff, from the bytes taken from the stream: xdr_pack.cc:203-206. -/
def get (m : Machine) (t : T) (w obj : Bytes) : Out Bytes :=
  match filter t with
  | none => .throw
  | some f => decode m f w obj

end Verif.XdrNum
