import Verif.XmlMain
/-
C arrays and tuples as XML: xml_pack_base.h:207-224, xml_unpack_base.h:529-546 (arrays),
xml_pack_epilogue.h:31-59, 83-110 (tuples), on top of the packer and parser of `Xml.lean`.

An array or tuple is a `.seq` of its elements; an array of several dimensions is that of all its
elements, as in the code.  How many there are is part of the type in C++, and here of the value
and of the variable.
-/
namespace Verif.Xml
open EnumKeys
open Verif.Json (JV dot tail)

mutual
/-- Types with arrays and tuples.  An array has the name of its elements, which is the type name
after the last blank or colon (xml_pack_base.h:217-221), a tuple that of each element
(xml_pack_epilogue.h:42-46). -/
inductive AX
  | plain (t : XT)
  | arr (e : Str) (t : AX)
  | tup (es : List (Str × XT))
  | cls (fs : AXs)
inductive AXs
  | nil
  | mem (n : Str) (t : AX) (fs : AXs)
  | base (t : AX) (fs : AXs)
end

/-- The elements of a tuple, each under the name of its type alone: `xml_pack_tuple_element`,
xml_pack_epilogue.h:36-51. -/
def packTup (g : Cfg) : List (Str × XT) → List JV → PK → PK
  | (e, t) :: es, v :: vs, p => packTup g es vs (packX g t e v p)
  | _, _, p => p

mutual
/-- `xml_pack(x,d,a)`: arrays xml_pack_base.h:208-224, whose elements are not const; tuples
xml_pack_epilogue.h:53-58 inside of 133-139, each with a `Tag`; the rest as in `packX`. -/
def packA (g : Cfg) : AX → Str → JV → PK → PK
  | .plain t, d, v => packX g t d v
  | .arr e t, d, v => withTag g d (packL (fun x p => packA g t (d ++ dot :: e) x p) (elemsOf v))
  | .tup es, d, v => withTag g d (withTag g d (packTup g es (elemsOf v)))
  | .cls fs, d, v => withTag g d (packAs g fs d v)
def packAs (g : Cfg) : AXs → Str → JV → PK → PK
  | .nil, _, _ => fun p => p
  | .mem n t fs, d, v => fun p => packAs g fs d (sndOf v) (packA g t (d ++ dot :: n) (fstOf v) p)
  | .base t fs, d, v => fun p => packAs g fs d (sndOf v) (packA g t d (fstOf v) p)
end

/-- `xml_pack(x,name,v)` with a new packer. -/
def packDocA (g : Cfg) (t : AX) (n : Str) (v : JV) : Str := (packA g t n v ⟨[], 0⟩).out

/-- The loop over the elements that are there. -/
def eachOld (f : Nat → JV → Option JV) : Nat → List JV → Option (List JV)
  | _, [] => some []
  | i, o :: os => (f i o).bind fun x => (eachOld f (i + 1) os).map (x :: ·)

/-- `xml_unpack_tuple_element`: xml_pack_epilogue.h:87-97; `d` is the name of the tuple and that of
its first element. -/
def unpackTup (miss : Bool) (m : DB) (d : Str) : Nat → List (Str × XT) → List JV → Option (List JV)
  | i, (_, t) :: es, o :: os =>
    (unpackX miss m t (idx d i) o).bind fun x => (unpackTup miss m d (i + 1) es os).map (x :: ·)
  | _, _, os => some os

/-- The name of the first element: xml_pack_epilogue.h:102-106. -/
def firstName : List (Str × XT) → Str
  | [] => []
  | e :: _ => e.1

mutual
/-- `xml_unpack(x,d,a)`: arrays xml_unpack_base.h:530-546; tuples xml_pack_epilogue.h:99-108; the
rest as in `unpackX`. -/
def unpackA (miss : Bool) (m : DB) : AX → Str → JV → Option JV
  | .plain t, d, old => unpackX miss m t d old
  | .arr e t, d, old =>
    (eachOld (fun i o => unpackA miss m t (idx (d ++ dot :: e) i) o) 0 (elemsOf old)).map .seq
  | .tup es, d, old =>
    (unpackTup miss m (d ++ dot :: firstName es) 0 es (elemsOf old)).map .seq
  | .cls fs, d, old => unpackAs miss m fs d old
def unpackAs (miss : Bool) (m : DB) : AXs → Str → JV → Option JV
  | .nil, _, _ => some .unit
  | .mem n t fs, d, old => (unpackA miss m t (d ++ dot :: n) (fstOf old)).bind fun x =>
      (unpackAs miss m fs d (sndOf old)).map fun y => .pair x y
  | .base t fs, d, old => (unpackA miss m t d (fstOf old)).bind fun x =>
      (unpackAs miss m fs d (sndOf old)).map fun y => .pair x y
end

end Verif.Xml
