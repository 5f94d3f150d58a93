import Verif.Codec
/-
`BinStream`, the adaptor that streams objects as they are in memory: pack_base.h:371-438 and, for vectors, pack_stl.h:81-102.

The buffer is the list of the bytes in it (C01, C02); a read that needs more bytes than there are throws (`none`).  Values and `insert` of
the ordered containers are those of `Verif.Codec`.  The size check of vectors is without the arithmetic modulo 2^64, which is in C41.
-/
namespace Verif.BinStream

/-- Types that can be streamed: `pod w` is anything that is not a container (streamed with `sizeof` `w`), `vec w` a vector of such, `seq` a
list or deque (classdesc.h:302-309), `assoc` a set or multiset (classdesc.h:321-335; a map is one of `pod`s, its pairs being no containers). -/
inductive BTy
  | pod (w : Nat)
  | vec (w : Nat)
  | seq (t : BTy)
  | assoc (lt : Val → Val → Bool) (multi : Bool) (t : BTy)

/-- A default constructed object. -/
def fresh : BTy → Val
  | .pod w => .raw (List.replicate w 0)
  | .vec _ => .raw []
  | .seq _ => .seq []
  | .assoc _ _ _ => .seq []

/-- `operator<<`: pack_base.h:376-382, 391-399, pack_stl.h:81-89. -/
def write : BTy → Val → Bytes
  | .pod _, v => v.bytes
  | .vec w, v => leB 8 (v.bytes.length / w) ++ v.bytes
  | .seq t, v => leB 8 v.elems.length ++ v.elems.flatMap (write t)
  | .assoc _ _ t, v => leB 8 v.elems.length ++ v.elems.flatMap (write t)

/-- `unpackraw`. -/
def take (n : Nat) (inp : Bytes) : Option (Bytes × Bytes) := if inp.length < n then none else some (inp.take n, inp.drop n)

/-- `for (size_t i=0; i<s; ++i) {(*this)>>v; o.push_back(v);}` or with `insert`: pack_base.h:407-411, 422-426.  There is one `v` for all. -/
def loop (f : Val → Bytes → Option (Val × Bytes)) (put : Val → List Val → List Val) : Nat → Val → List Val → Bytes → Option (List Val × Bytes)
  | 0, _, o, inp => some (o, inp)
  | n + 1, v, o, inp => (f v inp).bind fun x => loop f put n x.1 (put x.1 o) x.2

/-- `operator>>` into an object that is `d` before: pack_base.h:383-389, 401-430, pack_stl.h:90-102. -/
def read : BTy → Val → Bytes → Option (Val × Bytes)
  | .pod w, _, inp => (take w inp).map fun x => (.raw x.1, x.2)
  | .vec w, _, inp => (take 8 inp).bind fun x => if x.2.length < leV x.1 * w then none else (take (leV x.1 * w) x.2).map fun y => (.raw y.1, y.2)
  | .seq t, d, inp => (take 8 inp).bind fun x => (loop (read t) (fun e o => o ++ [e]) (leV x.1) (fresh t) d.elems x.2).map fun y => (.seq y.1, y.2)
  | .assoc lt multi t, d, inp =>
    (take 8 inp).bind fun x => (loop (read t) (ins lt multi) (leV x.1) (fresh t) d.elems x.2).map fun y => (.seq y.1, y.2)

end Verif.BinStream
