import Verif.JsonSub
/-
The option -onbase: classdesc.cc:446-452, 1579-1592; classdesc.h:1129-1136; json_pack_base.h:649-655.

Base classes are described by `json_pack_onbase` and `json_unpack_onbase`, which add `basename` of the base class to the descriptor and go on
with `json_pack` and `json_unpack`.  That is what the descriptor does for a member of that name, so that the functions of `Json.lean` are used,
with the type changed.  Names of types consist of ASCII characters (of others `isalnum` is not defined); the locale is "C".
-/
namespace Verif.OnBase
open Verif.Json EnumKeys

def alnum (c : UInt8) : Bool := (97 ≤ c && c ≤ 122) || (65 ≤ c && c ≤ 90) || (48 ≤ c && c ≤ 57)

/-- `basename<T>()` for a type called `n`, behind the dot: classdesc.h:1129-1136. -/
def basename (n : Str) : Str := [98, 97, 115, 101, 95] ++ n.map fun c => if alnum c then c else 95

mutual
/-- Types as described with -onbase; `tn` is `typeName`. -/
def onT (tn : JT → Str) : JT → JT
  | .struct fs => .struct (onF tn fs)
  | .seq t => .seq (onT tn t)
  | .arr n t => .arr n (onT tn t)
  | .carr dims t => .carr dims (onT tn t)
  | .assoc lt multi t => .assoc lt multi (onT tn t)
  | .smap t => .smap (onT tn t)
  | .pair a b => .pair (onT tn a) (onT tn b)
  | .tuple ts => .tuple ts
  | .ptr t => .ptr (onT tn t)
  | .cst t => .cst (onT tn t)
  | .bool => .bool
  | .int u => .int u
  | .real => .real
  | .flt => .flt
  | .char => .char
  | .str => .str
  | .enum u decl => .enum u decl
  | .excl d => .excl d
/-- The list of actions of a class: classdesc.cc:1579-1592, json_pack_base.h:649-655. -/
def onF (tn : JT → Str) : Fs → Fs
  | .nil => .nil
  | .mem k t r => .mem k (onT tn t) (onF tn r)
  | .base t r => .mem (basename (tn t)) (onT tn t) (onF tn r)
end

end Verif.OnBase
