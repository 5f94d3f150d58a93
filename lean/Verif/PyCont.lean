import Verif.OMap
/-
python_base.h, python_epilogue.h: what Python sees of sequences, arrays and maps.

Boost.Python converts an index to `size_t` and refuses negative numbers with OverflowError, arguments of another type with
TypeError; `std::out_of_range` becomes IndexError, other exceptions RuntimeError.  A `for` statement over an object with
`__getitem__` but no `__iter__` asks for the elements 0, 1, ... until IndexError.
-/
namespace Verif.PyCont
open OMap

/-- What Python sees of an operation. -/
inductive Obs (α : Type)
  | none
  | val (a : α)
  | num (n : Nat)
  | indexError
  | keyError
  | overflow
  | typeError
  | runtimeError
  | stop
  | ub
  deriving DecidableEq, Repr

/-- The converter to `size_t`. -/
def index (i : Int) : Option Nat := if 0 ≤ i ∧ i.toNat < 2 ^ 64 then some i.toNat else .none

/-- An operation of a Python program on a sequence and on one iterator of it; `none` is an object of another type. -/
inductive Op (α : Type)
  | len
  | get (i : Int)
  | set (i : Int) (v : Option α)
  | assign (l : List (Option α))
  | iter
  | next

/-- A sequence and the position of the iterator; `none` if it is exhausted. -/
structure St (α : Type) where
  c : List α
  it : Option Nat

/-- `getItem`: python_base.h:200-223. -/
def getItem {α} (c : List α) (i : Int) : Obs α :=
  match index i with
  | .none => .overflow
  | some n => if n ≥ c.length then .indexError else
    match c[n]? with
    | some a => .val a
    | .none => .ub

/-- `setItem`: python_base.h:225-233; `basic`: the elements have a primitive representation in Python. -/
def setItem {α} (basic : Bool) (c : List α) (i : Int) : Option α → Obs α × List α
  | .none => (.typeError, c)
  | some v =>
    match index i with
    | .none => (.overflow, c)
    | some n => if basic = false then (.none, c) else if n ≥ c.length then (.indexError, c) else (.none, c.set n v)

/-- `convertListTo`: python_base.h:976-983. -/
def convert {α} : List (Option α) → List α → Option (List α)
  | [], x => some x
  | .none :: _, _ => .none
  | some v :: l, x => convert l (x ++ [v])

/-- `assign`: python_base.h:985-987. -/
def assign {α} (c : List α) (l : List (Option α)) : Obs α × List α :=
  match convert l [] with
  | some x => (.none, x)
  | .none => (.typeError, c)

/-- Python's own iterator, at `n`, given the outcome of `__getitem__`. -/
def moved {α} (s : St α) (n : Nat) : Obs α → Obs α × St α
  | .val a => (.val a, { s with it := some (n + 1) })
  | .indexError => (.stop, { s with it := .none })
  | o => (o, s)

/-- The functions defined for sequences: python_base.h:997-1012; `iter` and `next` are Python's own. -/
def step {α} (basic : Bool) (s : St α) : Op α → Obs α × St α
  | .len => (.num s.c.length, s)
  | .get i => (getItem s.c i, s)
  | .set i v => let r := setItem basic s.c i v; (r.1, { s with c := r.2 })
  | .assign l => let r := assign s.c l; (r.1, { s with c := r.2 })
  | .iter => (.none, { s with it := some 0 })
  | .next =>
    match s.it with
    | .none => (.stop, s)
    | some n => moved s n (getItem s.c n)

def run {α} (basic : Bool) : St α → List (Op α) → List (Obs α)
  | _, [] => []
  | s, o :: os => let r := step basic s o; r.1 :: run basic r.2 os

/-- `x[i].m=v`, where `f` assigns the member: elements of sequences are given out by reference (python_base.h:211-216, 1003). -/
def modifySeq {α} (c : List α) (i : Int) (f : α → α) : Obs α × List α :=
  match getItem c i with
  | .val a => (.none, c.set i.toNat (f a))
  | o => (o, c)

/-! ### Member arrays -/

def prod : List Nat → Nat
  | [] => 1
  | n :: ns => n * prod ns

/-- `a[i]...[j]` with `ArrayGet::get` for each index: python_base.h:131-148.  No index is checked. -/
def arrayGet {α} (mem : List α) (off : Nat) : List Nat → List Int → Obs α
  | n :: ns, i :: is =>
    match index i with
    | .none => .overflow
    | some k => if k < n then arrayGet mem (off + k * prod ns) ns is else .ub
  | [], [] =>
    match mem[off]? with
    | some a => .val a
    | .none => .ub
  | _, _ => .typeError

/-- `a[i]...[j]=v`: `__setitem__` is defined for the last dimension only (python_epilogue.h:40-44). -/
def arraySet {α} (mem : List α) (off : Nat) (v : α) : List Nat → List Int → Obs α × List α
  | [n], [i] =>
    match index i with
    | .none => (.overflow, mem)
    | some k => if k < n then (.none, mem.set (off + k) v) else (.ub, mem)
  | n :: ns, i :: is =>
    match index i with
    | .none => (.overflow, mem)
    | some k => if k < n then arraySet mem (off + k * prod ns) v ns is else (.ub, mem)
  | _, _ => (.typeError, mem)

/-- `for v in a`, for a one-dimensional array, as far as `fuel` elements: what it has seen, and how it ended. -/
def arrayIter {α} (mem : List α) (n : Nat) : Nat → Nat → List α × Option (Obs α)
  | 0, _ => ([], .none)
  | fuel + 1, i =>
    match arrayGet mem 0 [n] [(i : Int)] with
    | .val a => let r := arrayIter mem n fuel (i + 1); (a :: r.1, r.2)
    | o => ([], some o)

/-- `a[i].m=v`: elements of arrays are given out as copies (python_base.h:139-140, 146-148). -/
def modifyArr {α} (mem : List α) (n : Nat) (i : Int) (_f : α → α) : Obs α × List α :=
  match arrayGet mem 0 [n] [i] with
  | .val _ => (.none, mem)
  | o => (o, mem)

/-! ### Maps -/

section
variable {K V : Type} (lt : K → K → Bool)

/-- `getMapItem`: python_base.h:235-255. -/
def getMap (m : List (K × V)) (k : K) : Obs V :=
  match mfind lt k m with
  | some v => .val v
  | .none => .runtimeError

/-- Operations on a map while one iterator walks over it. -/
inductive MOp (K V : Type)
  | set (k : K) (v : V)
  | next

/-- The iterator behind the one at `k`: `i++`. -/
def after (k : K) : List (K × V) → Option K
  | [] => none
  | (k', _) :: r => if lt k k' then some k' else after k r

/-- `Iterator::next`: python_base.h:272-280, and `setMapItem`: 257-260.  The iterator is at a key or at the end. -/
def mstep (s : List (K × V) × Option K) : MOp K V → Obs K × (List (K × V) × Option K)
  | .set k v => (.none, (mput lt k v s.1, s.2))
  | .next =>
    match s.2 with
    | none => (.stop, s)
    | some k => (.val k, (s.1, after lt k s.1))

/-- `iter`: python_base.h:284-285. -/
def mbegin (m : List (K × V)) : List (K × V) × Option K := (m, m.head?.map (·.1))

def mrun : List (K × V) × Option K → List (MOp K V) → List (Obs K)
  | _, [] => []
  | s, o :: os => let r := mstep lt s o; r.1 :: mrun r.2 os

end

end Verif.PyCont
