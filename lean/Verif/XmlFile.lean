import Verif.Props.XmlWrite
/-
XML read from a C file: xml_unpack_base.h:80-85.  All else is as in `Xml.lean`, where a character put back is one processed again.
-/
namespace Verif.XmlFile
open Verif.Xml
open EnumKeys (Str isSpace)
open Verif.Json (JV dot tail)

/-- What `ungetc(c,i)` puts back, c a `char`: xml_unpack_base.h:85.  A signed char 255 is -1, which is EOF, and nothing is put back. -/
def putBack (sgn : Bool) (c : UInt8) : Option UInt8 := if sgn = true ∧ c = 255 then none else some c

/-- One character read from a FILE*; `/`, `<` and the space behind a comment or declaration are followed by `unget`: xml_unpack_base.h:103-109, 249-251, 297-302. -/
def stepF (sgn : Bool) (m : Mode) (c : UInt8) : Option (List Str × Mode) :=
  match putBack sgn c with
  | some _ => step sgn m c
  | none =>
    match m with
    | .slash tok => some ([], .text (tok ++ [47]))
    | .lt tok => some (flush tok ++ [[60]], .text [])
    | .ws tok => some ([], .text tok)
    | m => step sgn m c

/-- All tokens: as `run`. -/
def runF (sgn : Bool) : Mode → Str → List Str × Option Mode
  | m, [] => ([], some m)
  | m, c :: w =>
    match stepF sgn m c with
    | none => ([], none)
    | some (t, m') => let r := runF sgn m' w; (t ++ r.1, r.2)

/-- `parse(FILE*&)`: xml_unpack_base.h:464-475. -/
def parseF (sgn : Bool) (m : DB) (w : Str) : Option DB :=
  let r := runF sgn (.text []) w
  parseToks m (cleanEnd r.2) r.1

end Verif.XmlFile
