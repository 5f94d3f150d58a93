import Verif.XdrNum
import Verif.File
/-
The machine independent buffer on a file: xdr_pack.cc:157-185 and what the other functions of xdr_pack.cc do in the modes `readf` and `writef`; pack_base.h:221-230, 237.

The XDR library is taken from its documentation: a stream on a `FILE` writes and reads there, what cannot be read makes the filter return false, and positions are
those of the `FILE`, converted to an unsigned of four bytes.  Files are those of `File.lean`.  The state behind an exception is left out.
-/
namespace Verif.XdrFile
open XdrNum (Bytes Machine T F Out)
open File (FS)

/-- An xdr_pack with a file; of the two streams there is the one for the mode, the pointer to the other is null. -/
structure XF where
  fs : FS
  write : Bool
  size : Nat
  pos : Nat

/-- The constructor: xdr_pack.cc:157-171, pack_base.h:221-230. -/
def openW : XF := ⟨⟨[], 0⟩, true, 0, 0⟩
def openR (c : Bytes) : XF := ⟨⟨c, 0⟩, false, 0, 0⟩

/-- `xdr_getpos`, `xdr_setpos`. -/
def getpos (s : FS) : Nat := s.off % 2 ^ 32
def setpos (p : Int) (s : FS) : FS := { s with off := (p % 2 ^ 32).toNat }

/-- Bytes written to the stream, and the new size: xdr_pack.cc:198-200, 262-264. -/
def put (w : Bytes) (x : XF) : XF := { x with fs := (File.fwrite w x.fs).2, size := getpos (File.fwrite w x.fs).2 }

/-- append: xdr_pack.cc:187-201.  Without a stream the filter follows a null pointer. -/
def append (strict : Bool) (m : Machine) (t : T) (obj : Bytes) (x : XF) : Out XF :=
  match XdrNum.filter t with
  | none => .throw
  | some f =>
    if x.write = false then .ub
    else match XdrNum.encode strict m f obj with
      | .ok w => .ok (put w x)
      | .throw => .throw
      | .ub => .ub

/-- The bytes xdr_opaque adds. -/
def pad (n : Nat) : Nat := (4 - n % 4) % 4

/-- packraw: xdr_pack.cc:251-265. -/
def packraw (bs : Bytes) (x : XF) : Out XF :=
  if x.write = false then .ub else .ok (put (bs ++ List.replicate (pad bs.length) 0) x)

/-- Bytes read from the stream. -/
def take (n : Nat) (s : FS) : Option (Bytes × FS) :=
  if n = 0 ∨ s.off + n ≤ s.data.length then some ((s.data.drop s.off).take n, { s with off := s.off + n }) else none

/-- popoff into an object: xdr_pack.cc:203-208. -/
def popoff (m : Machine) (t : T) (obj : Bytes) (x : XF) : Out (Bytes × XF) :=
  match XdrNum.filter t with
  | none => .throw
  | some f =>
    if x.write = true then .ub
    else match take (XdrNum.wire f) x.fs with
      | none => .throw
      | some (w, fs) => match XdrNum.decode m f w obj with
        | .ok b => .ok (b, { x with fs := fs, pos := getpos fs })
        | .throw => .throw
        | .ub => .ub

/-- unpackraw: xdr_pack.cc:267-272. -/
def unpackraw (n : Nat) (x : XF) : Out (Bytes × XF) :=
  if x.write = true then .ub
  else match take (n + pad n) x.fs with
    | none => .throw
    | some (w, fs) => .ok (w.take n, { x with fs := fs, pos := getpos fs })

/-- reseti, `asize` is 0: xdr_pack.cc:210-213. -/
def reseti (x : XF) : Out XF := if x.write = false then .ub else .ok { x with fs := setpos 0 x.fs }

/-- reseto: xdr_pack.cc:221-225. -/
def reseto (x : XF) : Out XF := if x.write = true then .ub else .ok { x with fs := setpos 0 x.fs }

/-- seeki by -k: xdr_pack.cc:228-243. -/
def seeki (k : Nat) (x : XF) : Out XF :=
  if x.write = false then .ub
  else .ok { x with fs := setpos (getpos x.fs - k) x.fs, size := (((getpos x.fs : Int) - k) % 2 ^ 64).toNat }

/-- seeko: xdr_pack.cc:245-249. -/
def seeko (d : Int) (x : XF) : Out XF := if x.write = true then .ub else .ok { x with fs := setpos (getpos x.fs + d) x.fs }

/-- `operator bool`: pack_base.h:237. -/
def toBool (x : XF) : Bool := x.pos < x.size

/-! ### Programs -/

/-- What is written: objects of fundamental types, and bytes. -/
inductive Wr
  | num (t : T) (obj : Bytes)
  | raw (bs : Bytes)

def writeAll (strict : Bool) (m : Machine) : List Wr → XF → Out XF
  | [], x => .ok x
  | .num t obj :: l, x => match append strict m t obj x with
    | .ok x => writeAll strict m l x
    | .throw => .throw
    | .ub => .ub
  | .raw bs :: l, x => match packraw bs x with
    | .ok x => writeAll strict m l x
    | .throw => .throw
    | .ub => .ub

/-- A program that reads: what it reads next depends on what it has read. -/
inductive Client (α : Type)
  | done (a : α)
  | num (t : T) (old : Bytes) (k : Bytes → Client α)
  | raw (n : Nat) (k : Bytes → Client α)

def Client.run {α : Type} (m : Machine) : Client α → XF → Out (α × XF)
  | .done a, x => .ok (a, x)
  | .num t old k, x => match popoff m t old x with
    | .ok (b, x) => (k b).run m x
    | .throw => .throw
    | .ub => .ub
  | .raw n k, x => match unpackraw n x with
    | .ok (b, x) => (k b).run m x
    | .throw => .throw
    | .ub => .ub

end Verif.XdrFile
