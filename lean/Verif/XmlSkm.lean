import Verif.XmlMain
/-
StringKeyMap written to and read from XML: stringKeyMap_epilogue.h:113-149, xml_unpack_base.h:372-378.

A map is its entries in order of the keys.
-/
namespace Verif.Xml
open OMap EnumKeys
open Verif.Json (JV dot tail)

/-- The loop of packing: stringKeyMap_epilogue.h:122-124; entries are const, so that pointers get a `Tag` as in `packX`. -/
def packKV (g : Cfg) (t : XT) (d : Str) : List (Str × JV) → PK → PK
  | [], p => p
  | e :: l, p => packKV g t d l
      (if isPtr t then withTag g (d ++ dot :: e.1) (packX g t (d ++ dot :: e.1) e.2) p else packX g t (d ++ dot :: e.1) e.2 p)

/-- Packing a StringKeyMap: stringKeyMap_epilogue.h:115-127. -/
def packSkm (g : Cfg) (t : XT) (d : Str) (l : List (Str × JV)) (p : PK) : PK := withTag g d (packKV g t d l) p

/-- The document written for it by a new packer. -/
def packSkmDoc (g : Cfg) (t : XT) (n : Str) (l : List (Str × JV)) : Str := (packSkm g t n l ⟨[], 0⟩).out

/-- `firstToken(d)` to `endToken(d)`: `lower_bound` to `upper_bound`, xml_unpack_base.h:372-378. -/
def tokens (m : DB) (d : Str) : List (Str × Str) :=
  (m.con.dropWhile fun e => strLt e.1 d).takeWhile fun e => !strLt d e.1

/-- The key for an entry of the database: what follows the last dot, and it: stringKeyMap_epilogue.h:138-140. -/
def skmKey (k : Str) : Str :=
  if dot ∈ k then dot :: (k.reverse.takeWhile (· != dot)).reverse else k

/-- The loop of unpacking: stringKeyMap_epilogue.h:135-142. -/
def unpackKV (miss : Bool) (m : DB) (t : XT) : List (Str × Str) → List (Str × JV) → Option (List (Str × JV))
  | [], a => some a
  | e :: l, a =>
    let old := (mfind strLt (skmKey e.1) a).getD (dflt t)
    (unpackX miss m t e.1 old).bind fun v => unpackKV miss m t l (mput strLt (skmKey e.1) v a)

/-- Unpacking a StringKeyMap holding `old`: stringKeyMap_epilogue.h:130-143. -/
def unpackSkm (miss : Bool) (m : DB) (t : XT) (d : Str) (old : List (Str × JV)) : Option (List (Str × JV)) :=
  unpackKV miss m t (tokens m d) old

end Verif.Xml
