import Verif.EnumKeys
/-
Random initialisation of objects: random_init_base.h, random_init_epilogue.h.

Doubles are the rational numbers that the format can represent; the arithmetic operations are those of
the rationals followed by rounding, of which only that it goes to a nearest representable number is
used (`Dbl`).  Only non-negative numbers below 2^100 occur, so signs, infinities and NaN are left out.
Wider intermediate results (x87) are not modelled.

The conversion of a floating point number to an integral type is undefined if the truncated value does
not fit, as is an access behind the end of an array; the result `none` stands for both.

Not modelled: floating point members (written as text and read again), `unique_ptr` (does not compile:
the specialisation at random_init_epilogue.h:67-73 calls a function of another descriptor),
`random_init_normalise` overloads supplied by the user, `std::vector<bool>`.
-/
namespace Verif.RandomInit
open OMap EnumKeys

/-- The non-negative numbers of the double format: 53 bits times a power of two. -/
def Rep (x : Rat) : Prop :=
  ∃ m k : Nat, m ≤ 9007199254740992 ∧
    ((k ≤ 971 ∧ x = (m : Rat) * ((2 ^ k : Nat) : Rat)) ∨ (k ≤ 1074 ∧ x * ((2 ^ k : Nat) : Rat) = (m : Rat)))

def dist (x y : Rat) : Rat := if x ≤ y then y - x else x - y

/-- Rounding to nearest, whatever happens to ties. -/
structure Dbl where
  rnd : Rat → Rat
  rep : ∀ x, 0 ≤ x → Rep (rnd x)
  near : ∀ x y, 0 ≤ x → Rep y → dist x (rnd x) ≤ dist x y

/-- `random_init_t::rand()`, random_init_base.h:24, for the value `n` of `std::rand()`:
`double(std::rand())/RAND_MAX`. -/
def defaultRand (f : Dbl) (randMax n : Nat) : Rat := f.rnd ((n : Rat) / (randMax : Rat))

/-- `numeric_limits<T>::max()`. -/
def maxOf (u : Under) : Int :=
  if u.signed then u.width.modulus / 2 - 1 else u.width.modulus - 1

inductive RV
  | unit
  | null
  | int (i : Int)
  | str (l : List Int)
  | ptr (x : RV)
  | pair (a b : RV)
  | seq (l : List RV)
  | map (l : List (RV × RV))
  deriving Inhabited

def RV.elems : RV → List RV
  | .seq l => l
  | _ => []

def RV.entries : RV → List (RV × RV)
  | .map l => l
  | _ => []

def RV.fst : RV → RV
  | .pair a _ => a
  | _ => .unit

def RV.snd : RV → RV
  | .pair _ b => b
  | _ => .unit

mutual
/-- The types of members.  `keep`: constants, excluded members, regular pointers (random_init_base.h:31-32,
144-149, 156-158).  `arr std k t`: arrays of `k` elements,
`std::array` if `std` (a sequence without `resize`).  The ordered
containers carry their comparison, maps also the value of a default constructed key.  `ptr`: shared and
auto pointers to a default constructible type, `ptrOld` to one that is not. -/
inductive RT
  | bool
  | int (u : Under)
  | char
  | str
  | enum (decl : List (Str × Int))
  | keep
  | seq (t : RT)
  | arr (std : Bool) (k : Nat) (t : RT)
  | pair (a b : RT)
  | set (lt : RV → RV → Bool) (t : RT)
  | map (lt : RV → RV → Bool) (key : RV) (t : RT)
  | ptr (t : RT)
  | ptrOld (t : RT)
  | struct (fs : RTs)

inductive RTs
  | nil
  | cons (t : RT) (r : RTs)
end

mutual
/-- The value of a default constructed object; members that are left uninitialised get 0 here. -/
def dflt : RT → RV
  | .bool => .int 0
  | .int _ => .int 0
  | .char => .int 0
  | .str => .str []
  | .enum _ => .int 0
  | .keep => .unit
  | .seq _ => .seq []
  | .arr _ k t => .seq (List.replicate k (dflt t))
  | .pair a b => .pair (dflt a) (dflt b)
  | .set _ _ => .map []
  | .map _ _ _ => .map []
  | .ptr _ => .null
  | .ptrOld _ => .null
  | .struct fs => dfltS fs

def dfltS : RTs → RV
  | .nil => .unit
  | .cons t r => .pair (dflt t) (dfltS r)
end

/-- Conversion of a non-negative double to an integral type with maximum `m`. -/
def trunc (m : Int) (x : Rat) : Option Int := if x.floor ≤ m then some x.floor else none

/-- `T(numeric_limits<T>::max()*r.rand())`: random_init_base.h:39-44.  The maximum is converted to double
first. -/
def drawInt (f : Dbl) (u : Under) (r : Rat) : Option Int :=
  trunc (maxOf u) (f.rnd (f.rnd (maxOf u : Rat) * r))

/-- `char((127-32)*r.rand()+32)`: random_init_base.h:46-54. -/
def drawChar (f : Dbl) (r : Rat) : Option Int := trunc 127 (f.rnd (f.rnd (95 * r) + 32))

/-- `10*r.rand()` converted to `size_t` or `int`: random_init_base.h:80, 118, 133. -/
def drawSize (f : Dbl) (r : Rat) : Option Int := trunc 2147483647 (f.rnd (10 * r))

/-- `int(enum_keys<T>().size()*r.rand())` and the access to the table: random_init_base.h:104-111; the
size is that of the map from values to names, classdesc.h:803. -/
def drawEnum (f : Dbl) (decl : List (Str × Int)) (r : Rat) : Option Int :=
  (trunc 2147483647 (f.rnd (f.rnd ((mkKeys (keysData decl)).v2s.length : Rat) * r))).bind fun i =>
    (keysData decl)[i.toNat]?.map (·.2)

/-- The generator is a sequence of numbers; `n` have been drawn already. -/
abbrev Gen := Nat → Rat

/-- The loops over elements: random_init_base.h:82, 93-94, 119. -/
def loop (g : RV → Nat → Option (RV × Nat)) : List RV → Nat → Option (List RV × Nat)
  | [], n => some ([], n)
  | x :: r, n => (g x n).bind fun p => (loop g r p.2).map fun q => (p.1 :: q.1, q.2)

def loopChar (f : Dbl) (s : Gen) : Nat → Nat → Option (List Int × Nat)
  | 0, n => some ([], n)
  | k + 1, n => (drawChar f (s n)).bind fun c => (loopChar f s k (n + 1)).map fun q => (c :: q.1, q.2)

/-- The loop of associative containers: random_init_base.h:134-139. -/
def loopIns (g : Nat → Option (RV × Nat)) (ins : RV → List (RV × RV) → List (RV × RV)) :
    Nat → List (RV × RV) → Nat → Option (List (RV × RV) × Nat)
  | 0, l, n => some (l, n)
  | k + 1, l, n => (g n).bind fun p => loopIns g ins k (ins p.1 l) p.2

/-- `resize(k)`. -/
def resize (d : RV) (k : Nat) (l : List RV) : List RV := l.take k ++ List.replicate (k - l.length) d

mutual
/-- `random_init(r,d,a)`; the result is the new value and the numbers drawn so far. -/
def init (f : Dbl) (s : Gen) : RT → RV → Nat → Option (RV × Nat)
  -- 69-73
  | .bool, _, n => some (.int (if (1 : Rat) / 2 ≤ s n then 1 else 0), n + 1)
  | .int u, _, n => (drawInt f u (s n)).map fun i => (.int i, n + 1)
  | .char, _, n => (drawChar f (s n)).map fun i => (.int i, n + 1)
  -- 76-83
  | .str, _, n => (drawSize f (s n)).bind fun k => (loopChar f s k.toNat (n + 1)).map fun q => (.str q.1, q.2)
  | .enum decl, _, n => (drawEnum f decl (s n)).map fun i => (.int i, n + 1)
  | .keep, v, n => some (v, n)
  -- 113-121
  | .seq t, v, n => (drawSize f (s n)).bind fun k =>
    (loop (init f s t) (resize (dflt t) k.toNat v.elems) (n + 1)).map fun q => (.seq q.1, q.2)
  -- 86-95; for std::array 113-121 with classdesc.h:472-474
  | .arr std _ t, v, n => (if std then (drawSize f (s n)).map fun _ => n + 1 else some n).bind fun n' =>
    (loop (init f s t) v.elems n').map fun q => (.seq q.1, q.2)
  -- 123-128
  | .pair a b, v, n => (init f s a v.fst n).bind fun p =>
    (init f s b v.snd p.2).map fun q => (.pair p.1 q.1, q.2)
  -- 130-142: the elements of a set
  | .set lt t, v, n => (drawSize f (s n)).bind fun k =>
    (loopIns (init f s t (dflt t)) (fun x l => minsert lt x .unit l) k.toNat v.entries (n + 1)).map
      fun q => (.map q.1, q.2)
  -- 130-142: the elements of a map are pairs with constant first member, which stays as constructed
  | .map lt key t, v, n => (drawSize f (s n)).bind fun k =>
    (loopIns (init f s t (dflt t)) (fun x l => minsert lt key x l) k.toNat v.entries (n + 1)).map
      fun q => (.map q.1, q.2)
  -- random_init_epilogue.h:25-32
  | .ptr t, _, n => (init f s t (dflt t) n).map fun q => (.ptr q.1, q.2)
  -- random_init_epilogue.h:34-42
  | .ptrOld t, v, n => match v with
    | .ptr x => (init f s t x n).map fun q => (.ptr q.1, q.2)
    | _ => some (v, n)
  | .struct fs, v, n => initS f s fs v n

def initS (f : Dbl) (s : Gen) : RTs → RV → Nat → Option (RV × Nat)
  | .nil, _, n => some (.unit, n)
  | .cons t r, v, n => (init f s t v.fst n).bind fun p =>
    (initS f s r v.snd p.2).map fun q => (.pair p.1 q.1, q.2)
end

end Verif.RandomInit
