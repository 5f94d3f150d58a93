import Verif.JsonPath
import Verif.Props.EnumKeys
namespace Verif.Json
open OMap EnumKeys

/-! Specification of the JSON round trip: the values considered, the document a value is
represented by, and what is to be in the destination afterwards. -/

def sFirst : Str := [102, 105, 114, 115, 116]
def sSecond : Str := [115, 101, 99, 111, 110, 100]

def isExcl : JT → Bool
  | .excl _ => true
  | _ => false

def isBasic : JT → Bool
  | .bool | .int _ | .real | .flt | .char | .str => true
  | _ => false

/-- Where a value is packed: the whole document (or element of an array), a member that does not
exist yet, a member for which an empty object has already been created (target of a pointer). -/
inductive Pos | root | slot | held
  deriving DecidableEq

mutual
/-- Objects of a type. -/
def Typed : JT → JV → Prop
  | .bool, v => ∃ b, v = .bool b
  | .int u, v => ∃ i, v = .int i ∧ InRange u i
  | .real, v => ∃ r, v = .real r
  | .flt, v => ∃ r, v = .real r
  | .char, v => ∃ c, v = .str [c]
  | .str, v => ∃ s, v = .str s
  | .enum _ _, v => ∃ i, v = .int i
  | .struct fs, v => TypedF fs v
  | .seq t, v => ∃ l, v = .seq l ∧ ∀ x ∈ l, Typed t x
  | .arr n t, v => ∃ l, v = .seq l ∧ l.length = n ∧ ∀ x ∈ l, Typed t x
  | .carr dims t, v => ∃ l, v = .seq l ∧ l.length = prod dims ∧ ∀ x ∈ l, Typed t x
  | .assoc _ _ t, v => ∃ l, v = .seq l ∧ ∀ x ∈ l, Typed t x
  | .smap t, v => ∃ l, v = .kv l ∧ ∀ e ∈ l, Typed t e.2
  | .pair a b, v => ∃ x y, v = .pair x y ∧ Typed a x ∧ Typed b y
  | .tuple ts, v => TypedF ts v
  | .ptr t, v => v = .null ∨ ∃ x, v = .ptr x ∧ Typed t x
  | .excl _, _ => True
  | .cst t, v => Typed t v
def TypedF : Fs → JV → Prop
  | .nil, v => v = .unit
  | .mem _ t r, v => ∃ x y, v = .pair x y ∧ Typed t x ∧ TypedF r y
  | .base t r, v => ∃ x y, v = .pair x y ∧ Typed t x ∧ TypedF r y
end

mutual
/-- Values the round trip is claimed for: enumerators declared, sets and maps in order, string
keys not empty and without dots, pointers not null (unless to a basic type, when the JSON
library's exception for a wrong type is not a json_pack_error). -/
def Rep (lib : Lib) : JT → JV → Prop
  | .bool, v => ∃ b, v = .bool b
  | .int u, v => ∃ i, v = .int i ∧ InRange u i
  | .real, v => ∃ r, v = .real r
  | .flt, v => ∃ r, v = .real r
  | .char, v => ∃ c, v = .str [c]
  | .str, v => ∃ s, v = .str s
  | .enum _ decl, v => ∃ n i, v = .int i ∧ (n, i) ∈ decl
  | .struct fs, v => RepF lib fs v
  | .seq t, v => ∃ l, v = .seq l ∧ ∀ x ∈ l, Rep lib t x
  | .arr n t, v => ∃ l, v = .seq l ∧ l.length = n ∧ ∀ x ∈ l, Rep lib t x
  | .carr dims t, v => ∃ l, v = .seq l ∧ l.length = prod dims ∧ ∀ x ∈ l, Rep lib t x
  | .assoc lt multi t, v => ∃ l, v = .seq l ∧ (∀ x ∈ l, Rep lib t x) ∧
      l.Pairwise (fun a b => lt b a = false ∧ (multi = true ∨ lt a b = true))
  | .smap t, v => ∃ l, v = .kv l ∧ Sorted strLt l ∧ (∀ e ∈ l, DotFree e.1 ∧ e.1 ≠ []) ∧
      ∀ e ∈ l, Rep lib t e.2
  | .pair a b, v => ∃ x y, v = .pair x y ∧ Rep lib a x ∧ Rep lib b y
  | .tuple _, _ => False
  | .ptr t, v => (v = .null ∧ isBasic t = true ∧ lib.mm = .lib) ∨ ∃ x, v = .ptr x ∧ Rep lib t x
  | .excl _, _ => True
  | .cst t, v => Rep lib t v
def RepF (lib : Lib) : Fs → JV → Prop
  | .nil, v => v = .unit
  | .mem _ t r, v => ∃ x y, v = .pair x y ∧ Rep lib t x ∧ RepF lib r y
  | .base t r, v => ∃ x y, v = .pair x y ∧ Rep lib t x ∧ RepF lib r y
end

mutual
/-- No excluded or const members anywhere. -/
def Plain : JT → Prop
  | .struct fs => PlainF fs
  | .seq t | .arr _ t | .carr _ t | .assoc _ _ t | .smap t | .ptr t => Plain t
  | .pair a b => Plain a ∧ Plain b
  | .tuple ts => PlainF ts
  | .excl _ | .cst _ => False
  | _ => True
def PlainF : Fs → Prop
  | .nil => True
  | .mem _ t r => Plain t ∧ PlainF r
  | .base t r => Plain t ∧ PlainF r
end

mutual
/-- Names of the members written for a class, inherited ones included. -/
def keysF : Fs → List Str
  | .nil => []
  | .mem k t r => if isExcl t then keysF r else k :: keysF r
  | .base t r => keysB t ++ keysF r
def keysB : JT → List Str
  | .struct fs => keysF fs
  | _ => []
end

mutual
/-- Types the round trip is claimed for, by position: no tuples; pairs not as members;
arrays only as members; member names distinct. -/
def Ok : Pos → JT → Prop
  | _, .enum u decl => Narrow u ∧ Decl u decl ∧ ∀ n ∈ decl.map (·.1), NoSpace n
  | _, .struct fs => OkF fs ∧ (keysF fs).Nodup
  | _, .seq t => Ok .root t
  | _, .arr _ t => Ok .root t
  | _, .assoc _ _ t => Ok .root t ∧ Plain t
  | p, .carr dims t => p ≠ .root ∧ dims ≠ [] ∧ Ok .root t
  | _, .smap t => Ok .slot t
  | p, .pair a b => p ≠ .slot ∧ Ok .slot a ∧ Ok .slot b
  | _, .tuple _ => False
  | .root, .ptr t => Ok .root t
  | .slot, .ptr t => Ok .held t
  | .held, .ptr t => Ok .held t
  | _, .excl _ => False
  | p, .cst t => p = .slot ∧ Ok .slot t
  | _, .bool => True
  | _, .int _ => True
  | _, .real => True
  | _, .flt => True
  | _, .char => True
  | _, .str => True
def OkF : Fs → Prop
  | .nil => True
  | .mem k t r => (DotFree k ∧ k ≠ []) ∧ (isExcl t = true ∨ Ok .slot t) ∧ OkF r
  | .base t r => OkB t ∧ OkF r
/-- Base classes have descriptors. -/
def OkB : JT → Prop
  | .struct fs => OkF fs
  | _ => False
end

/-- Nested arrays of the given dimensions. -/
def encArr (g : JV → J) : List Nat → List JV → J
  | [], v :: _ => g v
  | [], [] => .null
  | s :: ds, l => .arr ((chunks s (prod ds) l).map (encArr g ds))

mutual
/-- The document for a value. -/
def enc (lib : Lib) : JT → JV → J
  | .bool, .bool b => .bool b
  | .int _, .int i => .int i
  | .real, .real r => .real r
  | .flt, .real r => .real (lib.widen r)
  | .char, .str s => .str s
  | .str, .str s => .str s
  | .enum _ decl, .int i => .str (textWrite (table decl) i)
  | .struct fs, v => .obj (encF lib fs v [])
  | .seq t, .seq l => .arr (l.map (enc lib t))
  | .arr _ t, .seq l => .arr (l.map (enc lib t))
  | .assoc _ _ t, .seq l => .arr (l.map (enc lib t))
  | .carr dims t, .seq l => encArr (enc lib t) dims l
  | .smap t, .kv l => .obj (l.map fun e => (e.1, enc lib t e.2))
  | .pair a b, .pair x y =>
    .obj (mput strLt sSecond (enc lib b y) (mput strLt sFirst (enc lib a x) []))
  | .ptr t, .ptr v => enc lib t v
  | .ptr _, .null => .obj []
  | .cst t, v => enc lib t v
  | _, _ => .null
def encF (lib : Lib) : Fs → JV → List (Str × J) → List (Str × J)
  | .mem k t r, .pair x y, m =>
    encF lib r y (if isExcl t then m else mput strLt k (enc lib t x) m)
  | .base t r, .pair x y, m => encF lib r y (encB lib t x m)
  | _, _, m => m
def encB (lib : Lib) : JT → JV → List (Str × J) → List (Str × J)
  | .struct fs, v, m => encF lib fs v m
  | _, _, m => m
end

mutual
/-- What a destination holding `d` is to hold after `v` was unpacked into it: `v`, but for
excluded and const members. -/
def restore : JT → JV → JV → JV
  | .struct fs, v, d => restoreF fs v d
  | .seq t, .seq l, d => .seq (List.zipWith (restore t) l (resize l.length (dflt t) d.elems))
  | .arr _ t, .seq l, d => .seq (List.zipWith (restore t) l d.elems)
  | .carr _ t, .seq l, d => .seq (List.zipWith (restore t) l d.elems)
  | .smap t, .kv l, _ => .kv (l.map fun e => (e.1, restore t e.2 (dflt t)))
  | .pair a b, .pair x y, d => .pair (restore a x d.fst) (restore b y d.snd)
  | .ptr t, .ptr v, _ => .ptr (restore t v (dflt t))
  | .excl _, _, d => d
  | .cst _, _, d => d
  | _, v, _ => v
def restoreF : Fs → JV → JV → JV
  | .mem _ t r, .pair x y, d => .pair (restore t x d.fst) (restoreF r y d.snd)
  | .base t r, .pair x y, d => .pair (restore t x d.fst) (restoreF r y d.snd)
  | _, v, _ => v
end

end Verif.Json
