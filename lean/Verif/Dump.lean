import Verif.Tok
/-
dump_base.h, dump_epilogue.h: the text written for an object.

What the stream writes for a number, a string or an enumeration is a parameter: values carry that text.
Pointers to functions and member functions print nothing (dump_base.h:134-136) and are left out.
-/
namespace Verif.Dump
open Verif.Tok

/-- Types. -/
inductive Ty
  /-- fundamental types -/
  | fund
  /-- std::string -/
  | str
  /-- an enumeration; its descriptor dumps an `Enum_handle` (classdesc.cc:1442-1455) -/
  | enum
  /-- a class: bases (`none`) and names of members in order, and their types -/
  | obj (ns : List (Option Str)) (ts : List Ty)
  /-- vector, list, deque, set -/
  | seq (t : Ty)
  /-- a member array with its bounds -/
  | arr (n : Nat) (dims : List Nat) (t : Ty)
  /-- map from a fundamental type -/
  | map (t : Ty)
  /-- map from strings -/
  | smap (t : Ty)
  /-- shared_ptr -/
  | ptr (t : Ty)

inductive V
  | leaf (s : Str)
  | obj (vs : List V)
  | seq (vs : List V)
  | map (kvs : List (Str × V))
  | null
  | some (v : V)

/-- `format`: dump_base.h:43-56.  A space for each dot, the text behind the last one, and a colon. -/
def formatLoop : Str → Str → Str → Str
  | [], out, tail => out ++ tail ++ b ":"
  | c :: s, out, tail => if c = 46 then formatLoop s (out ++ [32]) s else formatLoop s out tail

def format (d : Str) : Str := formatLoop d [] d

/-- The value `format` returns. -/
def ndots (d : Str) : Nat := d.count 46

/-- `o << std::setw(n) << s`. -/
def setw (n : Nat) (s : Str) : Str := List.replicate (n - s.length) 32 ++ s

/-- `dump_basic`: dump_base.h:59-64. -/
def basic (d s : Str) : Str := format d ++ s ++ b "\n"

/-- dump_base.h:98-108: the elements of a container of fundamental values. -/
def plain (tab : Nat) : List V → Str
  | .leaf s :: vs => setw tab [] ++ s ++ plain tab vs
  | _ => []

/-- The number of elements of an array: dump_base.h:143-154. -/
def count (n : Nat) (dims : List Nat) : Nat := dims.foldl (· * ·) n

/-- dump_base.h:110-127: the elements of a container of anything else; `f` dumps an element under a name. -/
def elems (f : Str → V → Str) (d : Str) (i : Nat) : List V → Str
  | [] => []
  | v :: vs => setw (ndots d + 2) (b "{") ++ b "\n" ++ f (d ++ b "[" ++ b (toString i) ++ b "]") v ++
      setw (ndots d + 2) (b "}") ++ b "\n" ++ elems f d (i + 1) vs

def isFund : Ty → Bool
  | .fund => true
  | _ => false

/-- `dump_container`: dump_base.h:97-127. -/
def container (fund : Bool) (f : Str → V → Str) (d : Str) (vs : List V) : Str :=
  if fund = true then format d ++ plain (ndots d) vs ++ b "\n" else format d ++ b "\n" ++ elems f d 0 vs

/-- An element of a map from a fundamental type: dump_base.h:75-88. -/
def pair (fund : Bool) (f : Str → V → Str) (k : Str) (d : Str) (v : V) : Str :=
  match fund, v with
  | true, .leaf s => b "[" ++ k ++ b "]=" ++ s
  | _, v => b "[" ++ k ++ b "]=" ++ f d v

/-- An element whose key is an object itself: dump_base.h:89-95. -/
def spair (f : Str → V → Str) (k : Str) (d : Str) (v : V) : Str := basic (b "[." ++ d ++ b "]=") k ++ f d v

/-- The elements of a map, which is a container of pairs. -/
def pairs (f : Str → Str → V → Str) (d : Str) (i : Nat) : List (Str × V) → Str
  | [] => []
  | (k, v) :: kvs => setw (ndots d + 2) (b "{") ++ b "\n" ++ f k (d ++ b "[" ++ b (toString i) ++ b "]") v ++
      setw (ndots d + 2) (b "}") ++ b "\n" ++ pairs f d (i + 1) kvs

mutual
/-- `dump`: dump_base.h, dump_epilogue.h:54-60; what `Format` prints: dump_epilogue.h:32-52. -/
def dump : Ty → Str → V → Str
  | .fund, d, .leaf s => basic d s
  | .str, d, .leaf s => basic d s
  | .enum, d, .leaf s => format d ++ b "{\n" ++ basic d s ++ setw (ndots d + 2) (b "}") ++ b "\n"
  | .obj ns ts, d, .obj vs => format d ++ b "{\n" ++ fields ts d ns vs ++ setw (ndots d + 2) (b "}") ++ b "\n"
  | .seq t, d, .seq vs => container (isFund t) (dump t) d vs
  | .arr n dims t, d, .seq vs => if count n dims = 0 then [] else container (isFund t) (dump t) d (vs.take (count n dims))
  | .map t, d, .map kvs => format d ++ b "\n" ++ pairs (pair (isFund t) (dump t)) d 0 kvs
  | .smap t, d, .map kvs => format d ++ b "\n" ++ pairs (spair (dump t)) d 0 kvs
  | .ptr t, d, .some v => dump t d v
  | .ptr _, d, .null => basic d (b "null")
  | _, _, _ => []
/-- The members in order: the descriptor of the class; a base goes by the name of the object (dump_base.h:183-187). -/
def fields : List Ty → Str → List (Option Str) → List V → Str
  | t :: ts, d, n :: ns, v :: vs => dump t (match n with | some n => d ++ b "." ++ n | none => d) v ++ fields ts d ns vs
  | _, _, _, _ => []
end

end Verif.Dump
