/-
Model of the wrapper a member is declared with to leave it out of serialisation:
`Exclude<T>` of `/repo/classdesc.h` for integer types, `bool` and pointers.

The model runs a program that works on one variable `x`, declared `T x` or `Exclude<T> x`.
Only operations that compile for both declarations are in it.  With `Exclude<T>` the compiler
chooses the members of the wrapper: the right hand operand is converted to the type of
their parameter before the operation.  `none` is undefined behaviour.
-/
namespace Verif.ExWrap

/-- Integer types other than `bool`: 8, 16, 32 or 64 bits, signed or unsigned. -/
inductive Width | w8 | w16 | w32 | w64
  deriving DecidableEq, Repr

def Width.bits : Width → Nat
  | .w8 => 8 | .w16 => 16 | .w32 => 32 | .w64 => 64

structure Kind where
  width : Width
  signed : Bool
  deriving DecidableEq, Repr

/-- Smallest and largest value of a type. -/
def Kind.lo (k : Kind) : Int := if k.signed then -2 ^ (k.width.bits - 1) else 0
def Kind.hi (k : Kind) : Int :=
  if k.signed then 2 ^ (k.width.bits - 1) - 1 else 2 ^ k.width.bits - 1

def Kind.fits (k : Kind) (n : Int) : Bool := k.lo ≤ n && n ≤ k.hi

/-- Conversion of an integer to a type: the value modulo two to the number of bits. -/
def Kind.conv (k : Kind) (n : Int) : Int :=
  let m := n % 2 ^ k.width.bits
  if m ≤ k.hi then m else m - 2 ^ k.width.bits

def int32 : Kind := ⟨.w32, true⟩

/-- Integer promotion: types narrower than `int` are computed with as `int`. -/
def promote (k : Kind) : Kind := if k.width.bits < 32 then int32 else k

/-- The type two operands are brought to by the usual arithmetic conversions. -/
def common (a b : Kind) : Kind :=
  let a := promote a
  let b := promote b
  if a.signed = b.signed then (if a.width.bits < b.width.bits then b else a)
  else if a.signed then (if a.width.bits ≤ b.width.bits then b else a)
  else (if b.width.bits ≤ a.width.bits then a else b)

inductive Op | add | sub | mul | div
  deriving DecidableEq, Repr

/-- The result of an operation whose operands are both of type `k`, already promoted. -/
def arith (k : Kind) (op : Op) (a b : Int) : Option Int :=
  let r? := match op with
    | .add => some (a + b)
    | .sub => some (a - b)
    | .mul => some (a * b)
    | .div => if b = 0 then none else some (a.tdiv b)
  match r? with
  | none => none
  | some r =>
    if k.signed then (if k.fits r then some r else none) else some (k.conv r)

/-- A right hand operand: an integer of some type, or a `double`. -/
inductive Operand
  | int (k : Kind) (v : Int)
  | real (q : Rat)

/-- A real number without its fraction, as the conversion to an integer type. -/
def trunc (q : Rat) : Int := q.num.tdiv q.den

/-- Conversion of an operand to an integer type; undefined for a `double` that does not fit. -/
def Operand.to (k : Kind) : Operand → Option Int
  | .int _ v => some (k.conv v)
  | .real q => if k.fits (trunc q) then some (trunc q) else none

/-- Exact result of an operation on reals. -/
def ratOp (op : Op) (a b : Rat) : Option Rat :=
  match op with
  | .add => some (a + b)
  | .sub => some (a - b)
  | .mul => some (a * b)
  | .div => if b = 0 then none else some (a / b)

/-- What a program does with an integer variable `x`. -/
inductive Act
  /-- `x = e` -/
  | set (e : Operand)
  /-- `x op= e` -/
  | comp (op : Op) (e : Operand)
  /-- `std::cout << long(x op e)` with `e` of the type of `x` -/
  | show (op : Op) (v : Int)
  /-- `std::cout << (x == e)` with `e` of the type of `x` -/
  | eq (v : Int)
  /-- `std::cout << (x != e)` -/
  | ne (e : Operand)
  /-- `std::cout << long(T(x))` -/
  | value

def bit (b : Bool) : Int := if b then 1 else 0

/-- One step with `T x`: the rules of C++; `rnd` is the rounding of `double` results.
Returns the new value of `x` and what is written. -/
def stepPlain (rnd : Rat → Rat) (k : Kind) (x : Int) : Act → Option (Int × List Int)
  | .set e => (e.to k).map fun v => (v, [])
  | .comp op (.int kb v) =>
    let c := common k kb
    (arith c op (c.conv x) (c.conv v)).map fun r => (k.conv r, [])
  | .comp op (.real q) =>
    match ratOp op (rnd x) q with
    | none => none
    | some r => ((Operand.real (rnd r)).to k).map fun v => (v, [])
  | .show op v => (arith (promote k) op x v).map fun r => (x, [r])
  | .eq v => some (x, [bit (x == v)])
  | .ne (.int kb v) =>
    let c := common k kb
    some (x, [bit (c.conv x != c.conv v)])
  | .ne (.real q) => some (x, [bit (rnd x != q)])
  | .value => some (x, [x])

/-- One step with `Exclude<T> x`, `/repo/classdesc.h:988-1013` and 1015-1026 (`Exclude` has the
operators of its base class, and its own assignment, which calls that one).
* 996, 1025: `operator=` assigns the operand to `val`.
* 1000-1003: `operator+` and so on take `const T&` and return `T`.
* 1005-1008: `operator+=` and so on take `const T&`.
* 1010: `operator==(const T&)`; 1012: `operator!=` calls it with the operand it is given.
* 997-999: conversions to `T`.
`operator%` (1004, 1009) calls `mod`, declared later, and does not compile. -/
def stepExcl (k : Kind) (x : Int) : Act → Option (Int × List Int)
  | .set e => (e.to k).map fun v => (v, [])
  | .comp op e =>
    match e.to k with
    | none => none
    | some v =>
      let c := promote k
      (arith c op (c.conv x) (c.conv v)).map fun r => (k.conv r, [])
  | .show op v => (arith (promote k) op x v).map fun r => (x, [k.conv r])
  | .eq v => some (x, [bit (x == v)])
  | .ne e => (e.to k).map fun v => (x, [bit (!(x == v))])
  | .value => some (x, [x])

/-- A whole program: what is written, and the value of `x` at the end. -/
def run (step : Int → Act → Option (Int × List Int)) (x : Int) : List Act → Option (Int × List Int)
  | [] => some (x, [])
  | a :: as =>
    match step x a with
    | none => none
    | some (y, out) => (run step y as).map fun (z, out') => (z, out ++ out')

/-! ## `bool` -/

/-- What happens in a program with a `bool`: functions called, and values written. -/
inductive Ev
  | call (f : Nat)
  | wrote (b : Bool)
  deriving DecidableEq, Repr

/-- What a program does with `bool x`. An operand of `&&` and `||` is a call of the functions `fs`
with the value `b`. -/
inductive BAct
  | set (n : Int)
  | and (fs : List Nat) (b : Bool)
  | or (fs : List Nat) (b : Bool)
  /-- `x &= n`, with an integer -/
  | andSet (n : Int)
  | orSet (n : Int)
  | not
  | value

/-- One step with `bool x`: `&&` and `||` evaluate their second operand only if the first does not
decide; `&=` and `|=` work on the bits of the integers. -/
def bstepPlain (x : Bool) : BAct → Bool × List Ev
  | .set n => (n != 0, [])
  | .and fs b => (x, if x then fs.map .call ++ [.wrote b] else [.wrote false])
  | .or fs b => (x, if x then [.wrote true] else fs.map .call ++ [.wrote b])
  | .andSet n => (x && n % 2 == 1, [])
  | .orSet n => (x || n != 0, [])
  | .not => (x, [.wrote !x])
  | .value => (x, [.wrote x])

/-- One step with `Exclude<bool> x`, `/repo/classdesc.h:1073-1090`: `operator&&` and `operator||` are
functions, so their argument is evaluated before them; `operator&=(const bool&)` gets the integer
as a `bool`. -/
def bstepExcl (x : Bool) : BAct → Bool × List Ev
  | .set n => (n != 0, [])
  | .and fs b => (x, fs.map .call ++ [.wrote (x && b)])
  | .or fs b => (x, fs.map .call ++ [.wrote (x || b)])
  | .andSet n => (x && n != 0, [])
  | .orSet n => (x || n != 0, [])
  | .not => (x, [.wrote !x])
  | .value => (x, [.wrote x])

def brun (step : Bool → BAct → Bool × List Ev) (x : Bool) : List BAct → Bool × List Ev
  | [] => (x, [])
  | a :: as =>
    let (y, out) := step x a
    let (z, out') := brun step y as
    (z, out ++ out')

/-! ## Pointers -/

/-- A pointer: null, or to an element of the one array there is (or just past its end). -/
abbrev Ptr := Option Nat

structure PState where
  mem : List Int
  x : Ptr
  deriving DecidableEq, Repr

inductive PAct
  /-- `x = p` -/
  | set (p : Ptr)
  /-- `x == p` with `p` a pointer or `nullptr` -/
  | eq (p : Ptr)
  | ne (p : Ptr)
  /-- `if (x)` -/
  | test
  /-- `*x` and `x->` -/
  | read
  | write (v : Int)
  /-- `x + n`, `n + x` -/
  | add (n : Int)
  | radd (n : Int)
  /-- `x - p`, `p - x` -/
  | sub (p : Ptr)
  | rsub (p : Ptr)

/-- What is written: a number or a pointer. -/
inductive POut
  | num (n : Int)
  | ptr (p : Ptr)
  deriving DecidableEq, Repr

/-- `p + n`; only within the array and its end, or nothing added to null. -/
def padd (mem : List Int) (p : Ptr) (n : Int) : Option Ptr :=
  match p with
  | none => if n = 0 then some none else none
  | some i => if 0 ≤ (i : Int) + n ∧ (i : Int) + n ≤ mem.length
      then some (some ((i : Int) + n).toNat) else none

/-- `p - q`. -/
def psub (p q : Ptr) : Option Int :=
  match p, q with
  | none, none => some 0
  | some i, some j => some ((i : Int) - j)
  | _, _ => none

/-- The object a pointer leads to. -/
def deref (mem : List Int) (p : Ptr) : Option Int := p.bind (mem[·]?)

/-- One step with `T* x`. -/
def pstepPlain (s : PState) : PAct → Option (PState × List POut)
  | .set p => some ({ s with x := p }, [])
  | .eq p => some (s, [.num (bit (s.x == p))])
  | .ne p => some (s, [.num (bit (s.x != p))])
  | .test => some (s, [.num (bit s.x.isSome)])
  | .read => (deref s.mem s.x).map fun v => (s, [.num v])
  | .write v =>
    match s.x, deref s.mem s.x with
    | some i, some _ => some ({ s with mem := s.mem.set i v }, [])
    | _, _ => none
  | .add n => (padd s.mem s.x n).map fun p => (s, [.ptr p])
  | .radd n => (padd s.mem s.x n).map fun p => (s, [.ptr p])
  | .sub p => (psub s.x p).map fun n => (s, [.num n])
  | .rsub p => (psub p s.x).map fun n => (s, [.num n])

/-- One step with `Exclude<T*> x`, `/repo/classdesc.h:1028-1067`.  The assignment (1041) is
`return *(val=x)`: the object the new pointer leads to is the result, whether used or not. -/
def pstepExcl (s : PState) : PAct → Option (PState × List POut)
  | .set p =>
    match deref s.mem p with
    | none => none
    | some _ => some ({ s with x := p }, [])
  | .eq p => some (s, [.num (bit (s.x == p))])
  | .ne p => some (s, [.num (bit (!(s.x == p)))])
  | .test => some (s, [.num (bit s.x.isSome)])
  | .read => (deref s.mem s.x).map fun v => (s, [.num v])
  | .write v =>
    match s.x, deref s.mem s.x with
    | some i, some _ => some ({ s with mem := s.mem.set i v }, [])
    | _, _ => none
  | .add n => (padd s.mem s.x n).map fun p => (s, [.ptr p])
  | .radd n => (padd s.mem s.x n).map fun p => (s, [.ptr p])
  | .sub p => (psub s.x p).map fun n => (s, [.num n])
  | .rsub p => (psub p s.x).map fun n => (s, [.num n])

def prun (step : PState → PAct → Option (PState × List POut)) (s : PState) :
    List PAct → Option (PState × List POut)
  | [] => some (s, [])
  | a :: as =>
    match step s a with
    | none => none
    | some (t, out) => (prun step t as).map fun (u, out') => (u, out ++ out')

end Verif.ExWrap
