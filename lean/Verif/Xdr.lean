/-
The machine independent buffer: xdr_pack.cc, class xdr_pack of pack_base.h:323-359, in its memory mode.

The XDR library is taken from its documentation: a memory stream is a start, a length and a position; every item takes
a multiple of four bytes; an item that does not fit, or asks for more than is left, makes the filter return false.  An
item is the bytes its filter produces.
-/
namespace Verif.Xdr

/-- `BUFCHUNK`: pack_base.h:324. -/
def chunk : Nat := 1024

/-- The state of an xdr_pack: its memory, the position of the current chunk (`asize`), which is also where the encoding
stream starts, position and length of the encoding stream, position and length of the decoding stream (which starts at
0), and the members behind size() and pos(). -/
structure X where
  mem : Nat → UInt8
  asize : Nat
  inPos : Nat
  inLen : Nat
  outPos : Nat
  outLen : Nat
  size : Nat
  pos : Nat

/-- The constructor: xdr_pack.cc:150-155, pack_base.h:215-220.  The memory is not initialised. -/
def fresh (mem : Nat → UInt8) (sz : Nat) : X := ⟨mem, 0, 0, sz, 0, sz, sz, 0⟩

/-- The next chunk: xdr_pack.cc:191-196, 255-260. -/
def grow (x : X) : X := { x with asize := x.asize + x.inPos, inPos := 0, inLen := chunk, outPos := 0, outLen := chunk }

/-- Bytes stored from a position on. -/
def store (mem : Nat → UInt8) (at_ : Nat) (bs : List UInt8) : Nat → UInt8 :=
  fun i => if h : at_ ≤ i ∧ i - at_ < bs.length then bs[i - at_]'h.2 else mem i

/-- Encoding, and the new size: xdr_pack.cc:198-200, 262-264; `none` an exception. -/
def put (x : X) (bs : List UInt8) : Option X :=
  if x.inPos + bs.length ≤ x.inLen then
    some { x with mem := store x.mem (x.asize + x.inPos) bs, inPos := x.inPos + bs.length,
                  size := x.asize + (x.inPos + bs.length) }
  else none

/-- `BUFCHUNK-xdr_getpos(input)<n` in unsigned arithmetic: xdr_pack.cc:189, 253. -/
def short (x : X) (n : Nat) : Bool := x.inPos ≤ chunk && chunk - x.inPos < n

/-- append: xdr_pack.cc:187-201. -/
def append (x : X) (bs : List UInt8) : Option X := put (if short x 8 then grow x else x) bs

/-- The bytes xdr_opaque adds. -/
def pad (n : Nat) : Nat := (4 - n % 4) % 4

/-- packraw: xdr_pack.cc:251-265. -/
def packraw (x : X) (bs : List UInt8) : Option X :=
  put (if short x bs.length then grow x else x) (bs ++ List.replicate (pad bs.length) 0)

/-- Bytes from a position on. -/
def load (mem : Nat → UInt8) (at_ n : Nat) : List UInt8 := (List.range n).map fun i => mem (at_ + i)

/-- popoff of an item of n bytes: xdr_pack.cc:203-208. -/
def popoff (x : X) (n : Nat) : Option (List UInt8 × X) :=
  if x.outPos + n ≤ x.outLen then some (load x.mem x.outPos n, { x with outPos := x.outPos + n, pos := x.outPos + n })
  else none

/-- unpackraw: xdr_pack.cc:267-272. -/
def unpackraw (x : X) (n : Nat) : Option (List UInt8 × X) :=
  match popoff x (n + pad n) with
  | none => none
  | some (bs, x') => some (bs.take n, x')

/-- `xdr_setpos`: a position outside the stream is refused, which nobody looks at. -/
def setIn (x : X) (p : Int) : X := if 0 ≤ p ∧ p ≤ x.inLen then { x with inPos := p.toNat } else x
def setOut (x : X) (p : Int) : X := if 0 ≤ p ∧ p ≤ x.outLen then { x with outPos := p.toNat } else x

/-- reseti: xdr_pack.cc:210-219. -/
def reseti (x : X) : X :=
  if x.asize = 0 then setIn x 0 else { x with size := 0, asize := 0, inPos := 0, inLen := chunk }

/-- reseto: xdr_pack.cc:221-225. -/
def reseto (x : X) : X := setOut x 0

/-- seeki: xdr_pack.cc:228-243, offs ≤ 0. -/
def seeki (x : X) (offs : Int) : X :=
  let p : Int := x.inPos + offs
  if p < 0 then
    let q := p + x.asize
    let x' := { x with asize := (q / chunk).toNat, inPos := 0, inLen := chunk }
    let x'' := setIn x' (q % chunk)
    { x'' with size := (x''.asize + q % chunk).toNat }
  else
    let x' := setIn x p
    { x' with size := (x'.asize + p).toNat }

/-- seeko: xdr_pack.cc:245-249. -/
def seeko (x : X) (offs : Int) : X := setOut x (x.outPos + offs)

/-- `swap` of the encoding and decoding streams of two buffers: pack_base.h:354-356. -/
def swapStreams {α : Type} (a b : α × α) : (α × α) × (α × α) :=
  let (input, output) := a
  let (input', output') := b
  -- std::swap(input,xdr_other->input)
  let (input, input') := (input', input)
  -- std::swap(input,xdr_other->output)
  let (input, output') := (output', input)
  ((input, output), (input', output'))

end Verif.Xdr
