import Verif.Xml
import Mathlib.Data.Int.Log
import Mathlib.Data.Rat.Floor
/-
Floating point numbers as XML: xml_pack_base.h:118-155, xml_unpack_base.h:389-415, written to a stream in its default notation with a
precision, read by std::stod and its kin.  The text of a number is made and read by the C++ library, as the standards of C and C++ say, with
correct rounding (IEEE 754, ties to even).

Simplified: the "C" locale; hexadecimal numbers are not read; a NaN has neither sign nor payload.
-/
namespace Verif.XmlFlt
open Verif.Xml
open EnumKeys (Str isSpace)
open Verif.Json (JV dot tail)

/-- A binary format: digits of the significand, and the least and the greatest exponent of its last digit.  binary32: 24, -149, 104;
binary64: 53, -1074, 971; the 80 bit format: 64, -16445, 16320. -/
structure FF where
  prec : Nat
  emin : Int
  emax : Int

/-- A sign and an absolute value. -/
inductive Fl
  | nan
  | inf (neg : Bool)
  | num (neg : Bool) (q : Rat)
  deriving DecidableEq

/-- To the nearest integer, ties to even. -/
def rnd (x : Rat) : Int :=
  if x - ⌊x⌋ < 1 / 2 then ⌊x⌋ else if 1 / 2 < x - ⌊x⌋ then ⌊x⌋ + 1 else if ⌊x⌋ % 2 = 0 then ⌊x⌋ else ⌊x⌋ + 1

/-- The exponent of the last digit of the numbers around `q`. -/
def unit (F : FF) (q : Rat) : Int := max (Int.log 2 q - (F.prec - 1)) F.emin

/-- The nearest number of the format (as if there were no greatest one). -/
def nearest (F : FF) (q : Rat) : Rat := if q = 0 then 0 else (rnd (q / 2 ^ unit F q) : Rat) * 2 ^ unit F q

/-- The greatest number. -/
def largest (F : FF) : Rat := (2 ^ F.prec - 1 : Rat) * 2 ^ F.emax

/-! ### Writing -/

/-- `P` decimal digits of `q > 0`, as an integer, and the exponent of the last. -/
def decimal (P : Nat) (q : Rat) : Nat × Int :=
  let k := Int.log 10 q - (P - 1)
  ((rnd (q / 10 ^ k)).toNat, k)

/-- Without trailing zeros. -/
def strip : Nat → Nat → Int → Nat × Int
  | 0, d, k => (d, k)
  | f + 1, d, k => if d % 10 = 0 then strip f (d / 10) (k + 1) else (d, k)

/-- At least two digits. -/
def exp2 (n : Nat) : Str := if n < 10 then 48 :: dec n else dec n

/-- The number `d·10^j` in the notation of `%g` with precision `P`: by its exponent with the point in its place, or behind the first
digit. -/
def layout (P d : Nat) (j : Int) : Str :=
  let s := dec d
  let X := (s.length : Int) - 1 + j
  if -4 ≤ X ∧ X < P then
    if 0 ≤ j then s ++ List.replicate j.toNat 48
    else if 0 ≤ X then s.take (X.toNat + 1) ++ 46 :: s.drop (X.toNat + 1)
    else [48, 46] ++ List.replicate (-X - 1).toNat 48 ++ s
  else
    s.take 1 ++ (if s.length ≤ 1 then [] else 46 :: s.drop 1) ++ [101, if X < 0 then 45 else 43] ++ exp2 X.natAbs

/-- `o<<x` for `x ≥ 0`; a precision of 0 counts as 1. -/
def absText (P : Nat) (q : Rat) : Str :=
  if q = 0 then [48] else
    let P := max P 1
    let (d, k) := decimal P q
    let (d, j) := strip P d k
    layout P d j

/-- `put(o,x)`: xml_pack_base.h:118-132. -/
def text (P : Nat) : Fl → Str
  | .nan => [78, 97, 78]
  | .inf neg => if neg then [45, 73, 78, 70] else [73, 78, 70]
  | .num neg q => if neg then 45 :: absText P q else absText P q

/-! ### Reading -/

def signOf (s : Str) : Bool × Str :=
  match s with
  | 45 :: r => (true, r)
  | 43 :: r => (false, r)
  | r => (false, r)

/-- `e` and digits, with or without a sign. -/
def expOf (r : Str) : Int :=
  match r with
  | c :: r =>
    if c = 101 ∨ c = 69 then
      let (neg, r) := signOf r
      let ds := r.takeWhile isDigit
      if neg then -(valD ds : Int) else valD ds
    else 0
  | [] => 0

/-- The digits behind a point, and what follows. -/
def fracOf (r : Str) : Str × Str :=
  match r with
  | 46 :: r => (r.takeWhile isDigit, r.dropWhile isDigit)
  | _ => ([], r)

/-- The number a text begins with, if it does. -/
def numOf (r : Str) : Option Rat :=
  let a := r.takeWhile isDigit
  let (b, r) := fracOf (r.dropWhile isDigit)
  if a = [] ∧ b = [] then none else some ((valD (a ++ b) : Rat) * 10 ^ (expOf r - b.length))

/-- `stoT(s,x)`: xml_unpack_base.h:396-412.  What std::stod refuses because it is too large is read by the stream, which gives the greatest
number; where there is no number the stream gives 0. -/
def stoT (F : FF) (s : Str) : Fl :=
  let (neg, r) := signOf (s.dropWhile isSpace)
  let w := (r.take 3).map toLower
  if w = [105, 110, 102] then .inf neg
  else if w = [110, 97, 110] then .nan
  else match numOf r with
    | none => .num false 0
    | some q => .num neg (min (nearest F q) (largest F))

/-! ### Objects -/

mutual
/-- Types with floating point numbers in them: these themselves, the types of `Xml.lean`, sequences and classes. -/
inductive FX
  | flt
  | plain (t : XT)
  | seq (e : Str) (t : FX)
  | struct (fs : FXs)
inductive FXs
  | nil
  | mem (n : Str) (t : FX) (fs : FXs)
  | base (t : FX) (fs : FXs)
end

inductive FV
  | flt (x : Fl)
  | plain (v : JV)
  | seq (l : List FV)
  | unit
  | pair (a b : FV)

def fltOf : FV → Fl | .flt x => x | _ => .nan
def plainOf : FV → JV | .plain v => v | _ => .unit
def listOf : FV → List FV | .seq l => l | _ => []
def fstF : FV → FV | .pair a _ => a | _ => .unit
def sndF : FV → FV | .pair _ b => b | _ => .unit

/-- Elements one after the other. -/
def packLF (f : FV → PK → PK) : List FV → PK → PK
  | [], p => p
  | v :: l, p => packLF f l (f v p)

/-- Pointers among the elements get a tag of their own: see `packX`. -/
def ptrElem : FX → Bool
  | .plain t => isPtr t
  | _ => false

mutual
/-- `xml_pack(x,d,a)`: as `packX`, numbers by `pack`, xml_pack_base.h:145-155. -/
def packV (g : Cfg) (P : Nat) : FX → Str → FV → PK → PK
  | .flt, d, v => leaf g d (text P (fltOf v))
  | .plain t, d, v => packX g t d (plainOf v)
  | .seq e t, d, v => withTag g d
      (packLF (fun x p => if ptrElem t then withTag g (d ++ dot :: e) (packV g P t (d ++ dot :: e) x) p
        else packV g P t (d ++ dot :: e) x p) (listOf v))
  | .struct fs, d, v => withTag g d (packVs g P fs d v)
def packVs (g : Cfg) (P : Nat) : FXs → Str → FV → PK → PK
  | .nil, _, _ => fun p => p
  | .mem n t fs, d, v => fun p => packVs g P fs d (sndF v) (packV g P t (d ++ dot :: n) (fstF v) p)
  | .base t fs, d, v => fun p => packVs g P fs d (sndF v) (packV g P t d (fstF v) p)
end

/-- A new object; numbers are 0. -/
def newF : FX → FV
  | .flt => .flt (.num false 0)
  | .plain t => .plain (dflt t)
  | .seq _ _ => .seq []
  | .struct fs => newFs fs
where newFs : FXs → FV
  | .nil => .unit
  | .mem _ t fs => .pair (newF t) (newFs fs)
  | .base t fs => .pair (newF t) (newFs fs)

def eachF (f : Nat → Option FV) : Nat → Nat → Option (List FV)
  | 0, _ => some []
  | n + 1, i => (f i).bind fun v => (eachF f n (i + 1)).map (v :: ·)

mutual
/-- `xml_unpack(x,d,a)`: as `unpackX`, numbers by `unpack`, xml_unpack_base.h:410-415. -/
def unpackV (F : FF) (miss : Bool) (m : DB) : FX → Str → FV → Option FV
  | .flt, d, old => (getText miss m d).map fun r => match r with
      | some s => .flt (stoT F s) | none => old
  | .plain t, d, old => (unpackX miss m t d (plainOf old)).map .plain
  | .seq e t, d, _ =>
      (eachF (fun i => unpackV F miss m t (idx (d ++ dot :: e) i) (newF t)) (count m (d ++ dot :: e)) 0).map .seq
  | .struct fs, d, old => unpackVs F miss m fs d old
def unpackVs (F : FF) (miss : Bool) (m : DB) : FXs → Str → FV → Option FV
  | .nil, _, _ => some .unit
  | .mem n t fs, d, old => (unpackV F miss m t (d ++ dot :: n) (fstF old)).bind fun x =>
      (unpackVs F miss m fs d (sndF old)).map fun y => .pair x y
  | .base t fs, d, old => (unpackV F miss m t d (fstF old)).bind fun x =>
      (unpackVs F miss m fs d (sndF old)).map fun y => .pair x y
end

/-- `xml_pack(x,name,v)` with a new packer. -/
def packDocF (g : Cfg) (P : Nat) (t : FX) (name : Str) (v : FV) : Str := (packV g P t name v ⟨[], 0⟩).out

end Verif.XmlFlt
