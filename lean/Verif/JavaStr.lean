/-
Strings passed between C++ and Java: javaClass_base.h:47-50, 205-218, java/JNIEx.h:82-86, 98-108.

A Java string is its UTF-16 code units.
-/
namespace Verif.JavaStr

/-- A code unit in the modified UTF-8 of the Java native interface (from its specification, not part of the repository). -/
def unit8 (c : Nat) : List UInt8 :=
  if c = 0 then [0xc0, 0x80]
  else if c < 0x80 then [UInt8.ofNat c]
  else if c < 0x800 then [UInt8.ofNat (0xc0 + c / 64), UInt8.ofNat (0x80 + c % 64)]
  else [UInt8.ofNat (0xe0 + c / 4096), UInt8.ofNat (0x80 + c / 64 % 64), UInt8.ofNat (0x80 + c % 64)]

/-- `std::string(const char*)`: up to the first zero. -/
def cstr (s : List UInt8) : List UInt8 := s.takeWhile (· != 0)

/-- `getJavaVal<std::string>`: javaClass_base.h:47-50. -/
def toCpp (s : List Nat) : List UInt8 := cstr (s.flatMap unit8)

/-- `char` to `jchar`; `sgn`: char is signed. -/
def widen (sgn : Bool) (b : UInt8) : Nat := if sgn && 128 ≤ b.toNat then 65536 - (256 - b.toNat) else b.toNat

/-- `JNItype<jstring>::from`: javaClass_base.h:209-217, of a `const char*` or `std::string` by way of it. -/
def toJava (sgn : Bool) (s : List UInt8) : List Nat := (cstr s).map (widen sgn)

/-- The name of the C++ object kept in a Java object: java/JNIEx.h:84-85. -/
def setName (sgn : Bool) (s : List UInt8) : List Nat := s.map (widen sgn)

/-- Its use: java/JNIEx.h:103-104. -/
def getName (s : List Nat) : List UInt8 := s.map UInt8.ofNat

end Verif.JavaStr
