import Verif.OnBase
import Verif.Xml
/-
The option -onbase with XML: classdesc.cc:446-452, 1579-1592; classdesc.h:1129-1136; xml_pack_base.h:242-244; xml_unpack_base.h:522-524.

As with JSON, `xml_pack_onbase` and `xml_unpack_onbase` add `basename` to the descriptor and go on with `xml_pack` and `xml_unpack`, which is
what is done for a member of that name: the functions of `Xml.lean` are used, with the type changed.
-/
namespace Verif.OnBaseXml
open Verif.Xml EnumKeys

mutual
/-- Types as described with -onbase; `tn` is `typeName`. -/
def onT (tn : XT → Str) : XT → XT
  | .struct fs => .struct (onF tn fs)
  | .seq e t => .seq e (onT tn t)
  | .assoc lt e t => .assoc lt e (onT tn t)
  | .ptr t => .ptr (onT tn t)
  | .ref t => .ref (onT tn t)
  | .poly kt cls known => .poly (onT tn kt) (fun k => onF tn (cls k)) known
  | .bool => .bool
  | .int u => .int u
  | .chr => .chr
  | .byte => .byte
  | .str => .str
  | .cdata => .cdata
/-- The list of actions of a class: classdesc.cc:1579-1592, xml_pack_base.h:242-244, xml_unpack_base.h:522-524. -/
def onF (tn : XT → Str) : Fs → Fs
  | .nil => .nil
  | .mem n t r => .mem n (onT tn t) (onF tn r)
  | .base t r => .mem (OnBase.basename (tn t)) (onT tn t) (onF tn r)
end

end Verif.OnBaseXml
