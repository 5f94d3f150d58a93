import Verif.CodecLemmas
/-
What is left of object and buffer when packing or unpacking throws: pack_base.h:264-281, 528-576, 613-635; pack_stl.h:105-130, 238-268, 307-332;
polyAccessPack.h:33-44, 64-81.

Buffers in memory, and as much memory as is needed.  The pointer flag is DEFAULT.
-/
namespace Verif.UnpFail
open Verif (leB leV)

/-- Types: fundamental ones of `n` bytes, `std::string`, classes member by member (`unit`, `pair`), tuples (`tup`: the first member and the
tuple of the others, or the only other one), sequences, smart pointers to objects that
are not polymorphic, raw pointers. -/
inductive Ty
  | prim (n : Nat)
  | str
  | unit
  | pair (a b : Ty)
  | tup (a b : Ty)
  | seq (t : Ty)
  | opt (t : Ty)
  | rawp
  deriving DecidableEq

/-- Their values; where raw pointers lead to is not of interest. -/
@[reducible] def Ty.V : Ty → Type
  | .prim _ => Bytes
  | .str => Bytes
  | .unit => Unit
  | .pair a b => a.V × b.V
  | .tup a b => a.V × b.V
  | .seq t => List t.V
  | .opt t => Option t.V
  | .rawp => Option Nat

/-- `for (i=begin; i!=end; ++i) b << *i`: pack_stl.h:110-111. -/
def packL {α : Type} (f : α → Bytes → Bool × Bytes) : List α → Bytes → Bool × Bytes
  | [], w => (true, w)
  | v :: l, w =>
    match f v w with
    | (true, w') => packL f l w'
    | (false, w') => (false, w')

/-- `pack` to a buffer that holds `w`; false: an exception.  Fundamental types pack_base.h:613-627, strings pack_stl.h:238-247, containers 105-112,
smart pointers polyAccessPack.h:33-44, raw pointers pack_base.h:532-553, tuples pack_stl.h:307-317. -/
def pack : (t : Ty) → t.V → Bytes → Bool × Bytes
  | .prim _, v, w => (true, w ++ v)
  | .str, v, w => (true, w ++ leB 8 v.length ++ v)
  | .unit, _, w => (true, w)
  | .pair a b, v, w =>
    match pack a v.1 w with
    | (true, w') => pack b v.2 w'
    | (false, w') => (false, w')
  | .tup a b, v, w =>
    match pack a v.1 w with
    | (true, w') => pack b v.2 w'
    | (false, w') => (false, w')
  | .seq t, v, w => packL (pack t) v (w ++ leB 8 v.length)
  | .opt _, none, w => (true, w ++ [0])
  | .opt t, some v, w => pack t v (w ++ [1])
  | .rawp, _, w => (false, w)

inductive St
  | ok
  | throw
  | ub
  deriving DecidableEq

/-- What there is afterwards: the object, and what has not been read of the buffer. -/
structure Out (α : Type) where
  st : St
  val : α
  rest : Bytes

/-- `unpackraw`, `popoff`: pack_base.h:269-281. -/
def pop (n : Nat) (r : Bytes) : Option (Bytes × Bytes) := if r.length < n then none else some (r.take n, r.drop n)

/-- `for (; i<sz; ++i) { value_type x; b >> x; push_back(a,x); }`: pack_stl.h:124-129. -/
def loop {α : Type} (f : Bytes → Out α) : Nat → List α → Bytes → Out (List α)
  | 0, acc, r => ⟨.ok, acc, r⟩
  | n + 1, acc, r =>
    match f r with
    | ⟨.ok, v, r'⟩ => loop f n (acc ++ [v]) r'
    | ⟨s, _, r'⟩ => ⟨s, acc, r'⟩

/-- `unpack` to an object that is `old`; `D` are objects just made, whose fundamental members may be anything.
Fundamental types pack_base.h:629-635, strings pack_stl.h:249-268 (2^64-1 characters: a vector of none is read into), sequences 118-130, smart
pointers polyAccessPack.h:64-81, raw pointers pack_base.h:557-576, tuples pack_stl.h:318-331 (the others are unpacked to a copy). -/
def unpack (D : (t : Ty) → t.V) : (t : Ty) → t.V → Bytes → Out t.V
  | .prim n, old, r =>
    match pop n r with
    | none => ⟨.throw, old, r⟩
    | some (b, r') => ⟨.ok, b, r'⟩
  | .str, old, r =>
    match pop 8 r with
    | none => ⟨.throw, old, r⟩
    | some (b, r1) =>
      if leV b + 1 = W64 then ⟨.ub, old, r1⟩
      else match pop (leV b) r1 with
        | none => ⟨.throw, old, r1⟩
        | some (s, r2) => ⟨.ok, s, r2⟩
  | .unit, old, r => ⟨.ok, old, r⟩
  | .pair a b, old, r =>
    match unpack D a old.1 r with
    | ⟨.ok, x, r'⟩ => let o := unpack D b old.2 r'; ⟨o.st, (x, o.val), o.rest⟩
    | ⟨s, x, r'⟩ => ⟨s, (x, old.2), r'⟩
  | .tup a b, old, r =>
    match unpack D a old.1 r with
    | ⟨.ok, x, r'⟩ =>
      match unpack D b old.2 r' with
      | ⟨.ok, y, r2⟩ => ⟨.ok, (x, y), r2⟩
      | ⟨s, _, r2⟩ => ⟨s, (x, old.2), r2⟩
    | ⟨s, x, r'⟩ => ⟨s, (x, old.2), r'⟩
  | .seq t, old, r =>
    match pop 8 r with
    | none => ⟨.throw, old, r⟩
    | some (b, r1) => loop (unpack D t (D t)) (leV b) [] r1
  | .opt t, old, r =>
    match pop 1 r with
    | none => ⟨.throw, old, r⟩
    | some (b, r1) =>
      if b = [0] then ⟨.ok, none, r1⟩
      else if b = [1] then let o := unpack D t (D t) r1; ⟨o.st, some o.val, o.rest⟩
      else ⟨.ub, old, r1⟩
  | .rawp, old, r => ⟨.throw, old, r⟩

end Verif.UnpFail
