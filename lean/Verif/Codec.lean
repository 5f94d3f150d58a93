import Verif.Buffer
/-
Model of `pack`/`unpack` (binary serialisation) over a universe of C++ types.
-/
namespace Verif

/-! ### Values and types -/

/-- C++ values, untyped. `raw` is the object representation of a fundamental value, or the characters of a
string or character array; `seq` the elements of an array or container in iteration order; `pair` the parts of
a class (member list is right nested, a base class is a member); `null`/`ptr key v` an owning pointer, where `key` is the
dynamic type for polymorphic pointers and `unit` otherwise. -/
inductive Val
  | raw (l : Bytes)
  | seq (l : List Val)
  | pair (a b : Val)
  | unit
  | null
  | ptr (key : Val) (v : Val)

/-- The types covered.
* `prim n`: fundamental type or enum (an enum is streamed as int, pack_base.h:749-762) of `n` bytes
* `chars n`: `char x[n]...` with `n` characters in all (pack_base.h:679-699)
* `str w`: `std::basic_string` with characters of `w` bytes
* `carr n t`: C array, `n` is the product of the dimensions (pack_base.h:656-676)
* `arr n t`: `std::array<t,n>`
* `seq t`: vector, list, deque
* `assoc lt multi t`: set/map (`multi=false`), multiset/multimap; `lt` compares elements (by key); the element
  type of a map is `pair k v`
* `pair`, `unit`: classes, std::pair, std::tuple
* `excl d`: Exclude<T>, unserialisable<T>, static const members; `d` is the default constructed value
* `cst t`: const qualified member
* `opt t`: shared_ptr/unique_ptr to a non-polymorphic `t`
* `poly kt known f`: shared_ptr/unique_ptr to PolyPackBase; `kt` is the type of the type identifier, `known` the
  identifiers `create` accepts, `f k` the type of the objects created for `k`. -/
inductive Ty
  | prim (n : Nat)
  | chars (n : Nat)
  | str (w : Nat)
  | carr (n : Nat) (t : Ty)
  | arr (n : Nat) (t : Ty)
  | seq (t : Ty)
  | assoc (lt : Val → Val → Bool) (multi : Bool) (t : Ty)
  | pair (a b : Ty)
  | unit
  | excl (d : Val)
  | cst (t : Ty)
  | opt (t : Ty)
  | poly (kt : Ty) (known : Val → Bool) (f : Val → Ty)

namespace Val
def bytes : Val → Bytes | raw l => l | _ => []
def elems : Val → List Val | seq l => l | _ => []
def fst : Val → Val | pair a _ => a | _ => unit
def snd : Val → Val | pair _ b => b | _ => unit
end Val

/-- Default constructed object of a type: the local `x` or `e` that containers are filled from, pack_stl.h:126,171, and
`new T`, polyAccessPack.h:57,76. Fundamental types are really indeterminate there; zero stands in (they are always
overwritten). -/
def dflt : Ty → Val
  | .prim n => .raw (List.replicate n 0)
  | .chars n => .raw (List.replicate n 0)
  | .str _ => .raw []
  | .carr n t => .seq (List.replicate n (dflt t))
  | .arr n t => .seq (List.replicate n (dflt t))
  | .seq _ => .seq []
  | .assoc _ _ _ => .seq []
  | .pair a b => .pair (dflt a) (dflt b)
  | .unit => .unit
  | .excl d => d
  | .cst t => dflt t
  | .opt _ => .null
  | .poly _ _ _ => .null

/-! ### Integers on the wire -/

/-- `k` bytes of `n`, least significant first (little-endian platform, native representation). -/
def leB : Nat → Nat → Bytes
  | 0, _ => []
  | k + 1, n => UInt8.ofNat (n % 256) :: leB k (n / 256)

def leV : Bytes → Nat
  | [] => 0
  | x :: xs => x.toNat + 256 * leV xs

/-! ### Packing -/

/-- `for (i=begin; i!=end; ++i) b << *i`, pack_stl.h:110-111; also the loop of pack_base.h:664. -/
def packList (f : Val → M Unit) : List Val → M Unit
  | [] => M.pure ()
  | v :: vs => M.bind (f v) fun _ => packList f vs

/-- `b << uint64(n)`: pack_stl.h:109, pack_base.h:621-627. -/
def packU64 (al : Alloc) (n : Nat) : M Unit := Buf.append al (leB 8 n)

/-- `pack(buf, "", v)` for a value `v` of type `t`. A value that is not of the type cannot occur in C++; those
cases throw here and are excluded by `HasType`.
pack_base.h:613-627 (fundamental), 656-665 (arrays), 679-688 (char arrays), 733-743,764 (static const, Exclude);
pack_stl.h:105-112 (containers), 238-247 (strings), 287-295 (pair), 307-316 (tuple);
polyAccessPack.h:16-44 (smart pointers). Classes: the generated descriptor packs bases and members in order. -/
def packM (al : Alloc) : Ty → Val → M Unit
  | .prim _, .raw l => Buf.append al l
  | .chars _, .raw l => Buf.packraw al l
  | .str w, .raw l => M.bind (packU64 al (l.length / w)) fun _ => Buf.packraw al l
  | .carr _ t, .seq l => packList (packM al t) l
  | .arr _ t, .seq l => M.bind (packU64 al l.length) fun _ => packList (packM al t) l
  | .seq t, .seq l => M.bind (packU64 al l.length) fun _ => packList (packM al t) l
  | .assoc _ _ t, .seq l => M.bind (packU64 al l.length) fun _ => packList (packM al t) l
  | .pair a b, .pair x y => M.bind (packM al a x) fun _ => packM al b y
  | .unit, _ => M.pure ()
  | .excl _, _ => M.pure ()
  | .cst t, v => packM al t v
  | .opt _, .null => Buf.append al [0]
  | .opt t, .ptr _ v => M.bind (Buf.append al [1]) fun _ => packM al t v
  | .poly _ _ _, .null => Buf.append al [0]
  | .poly kt _ f, .ptr k v =>
    M.bind (Buf.append al [1]) fun _ => M.bind (packM al kt k) fun _ => packM al (f k) v
  | _, _ => M.throw .packError

/-! ### Unpacking -/

/-- `for (i<n) b >> x` with a fresh `x` each time, collecting. -/
def decN (f : M Val) : Nat → M (List Val)
  | 0 => M.pure []
  | n + 1 => M.bind f fun v => M.bind (decN f n) fun vs => M.pure (v :: vs)

/-- Unpacking successive existing elements in place. -/
def decIn (f : Val → M Val) : List Val → M (List Val)
  | [] => M.pure []
  | d :: ds => M.bind (f d) fun v => M.bind (decIn f ds) fun vs => M.pure (v :: vs)

/-- `std::set/map::insert` on elements kept in order: equivalent keys are not inserted again. -/
def insU (lt : Val → Val → Bool) (e : Val) : List Val → List Val
  | [] => [e]
  | x :: xs => if lt e x then e :: x :: xs else if lt x e then x :: insU lt e xs else x :: xs

/-- `std::multiset/multimap::insert`: after all equivalent elements. -/
def insM (lt : Val → Val → Bool) (e : Val) : List Val → List Val
  | [] => [e]
  | x :: xs => if lt e x then e :: x :: xs else x :: insM lt e xs

def ins (lt : Val → Val → Bool) (multi : Bool) (e : Val) (l : List Val) : List Val :=
  if multi then insM lt e l else insU lt e l

/-- `for (i<n) {value_type e; b>>e; a.insert(e);}`, pack_stl.h:169-174. -/
def decAssoc (f : M Val) (put : Val → List Val → List Val) : Nat → List Val → M (List Val)
  | 0, acc => M.pure acc
  | n + 1, acc => M.bind f fun v => decAssoc f put n (put v acc)

/-- `unpackraw(buf, n)` into a destination with room for `cap` bytes: the stream check comes first. -/
def unpackrawInto (cap n : Nat) : M Bytes := fun b =>
  if (n + b.pos) % W64 > b.size then (.throw .eof, b)
  else if cap < n then (.ub .oob, b) else Buf.unpackraw n b

/-- `b >> sz` for a uint64. -/
def unpackU64 : M Nat := M.bind (Buf.popoff 8) fun bs => M.pure (leV bs)

/-- String body, pack_stl.h:261-267. `lim` is the largest vector the allocator grants, in bytes (at most PTRDIFF_MAX);
a larger one throws length_error or bad_alloc. `size+1` and `sizeof(cT)*size` are computed modulo 2^64.
`none` means the target string is left alone (asg with an empty vector, pack_stl.h:254-258). -/
def decStr (lim w : Nat) : M (Option Bytes) :=
  M.bind unpackU64 fun size =>
    let n := (size + 1) % W64
    if lim < w * n then M.throw .lengthError
    else M.bind (unpackrawInto (w * n) (w * size % W64)) fun bs =>
      if n = 0 then M.pure none else M.pure (some bs)

/-- `bool valid; unpack(x,d,valid)`: any representation other than 0 and 1 is undefined when tested. -/
def decBool : M Bool := M.bind (Buf.popoff 1) fun bs =>
  if bs = [0] then M.pure false else if bs = [1] then M.pure true else M.ub .badBool

/-- Skip `n` items, threading one reused local. -/
def decThread (f : Val → M Val) : Nat → Val → M Unit
  | 0, _ => M.pure ()
  | n + 1, x => M.bind (f x) fun x' => decThread f n x'

/-- Repeat. -/
def repM (f : M Unit) : Nat → M Unit
  | 0 => M.pure ()
  | n + 1 => M.bind f fun _ => repM f n

mutual
/-- `unpack(buf, "", dst)`, returning the new value of `dst`.
pack_base.h:629-635 (fundamental), 667-676 (arrays), 690-699 (char arrays), 737-746,765 (static const, Exclude);
pack_stl.h:118-130 (sequences), 133-140 (std::array), 162-175 (associative), 249-268 (strings), 297-305 (pair),
318-331 (tuple); polyAccessPack.h:46-81 (smart pointers). Memory exhaustion of containers is not modelled. -/
def decM (lim : Nat) : Ty → Val → M Val
  | .prim n, _ => M.bind (Buf.popoff n) fun l => M.pure (.raw l)
  | .chars n, _ => M.bind (Buf.unpackraw n) fun l => M.pure (.raw l)
  | .str w, d => M.bind (decStr lim w) fun
      | none => M.pure d
      | some l => M.pure (.raw l)
  | .carr _ t, d => M.bind (decIn (decM lim t) d.elems) fun l => M.pure (.seq l)
  | .arr n t, d => M.bind unpackU64 fun sz =>
      -- for (i=0; i<sz && i<N; ++i) b >> a[i]
      M.bind (decIn (decM lim t) (d.elems.take (min sz n))) fun l =>
        M.pure (.seq (l ++ d.elems.drop (min sz n)))
  | .seq t, _ => M.bind unpackU64 fun sz =>
      M.bind (decN (decM lim t (dflt t)) sz) fun l => M.pure (.seq l)
  | .assoc lt multi t, _ => M.bind unpackU64 fun sz =>
      M.bind (decAssoc (decM lim t (dflt t)) (ins lt multi) sz []) fun l => M.pure (.seq l)
  | .pair a b, d => M.bind (decM lim a d.fst) fun x => M.bind (decM lim b d.snd) fun y => M.pure (.pair x y)
  | .unit, _ => M.pure .unit
  | .excl _, d => M.pure d
  | .cst t, d => M.bind (skipM lim t) fun _ => M.pure d
  | .opt t, _ => M.bind decBool fun valid =>
      if valid then M.bind (decM lim t (dflt t)) fun v => M.pure (.ptr .unit v) else M.pure .null
  | .poly kt known f, _ => M.bind decBool fun valid =>
      if valid then M.bind (decM lim kt (dflt kt)) fun k =>
        if known k then M.bind (decM lim (f k) (dflt (f k))) fun v => M.pure (.ptr k v)
        else M.throw .invalidType
      else M.pure .null

/-- `unpack(buf, "", dst)` for a const `dst`.
pack_base.h:637-643 (fundamental: read and discard), 667-676 with a const element type (arrays; a const char array
uses this generic version too), pack_stl.h:148-156 (sequences and std::array: one reused mutable local), 177-188
(associative), 253,261-267 (strings), 297-305 (pair), 318-331 (tuple, reading the tail as a mutable copy is not
distinguished). Smart pointers cannot be unpacked to const (does not compile). -/
def skipM (lim : Nat) : Ty → M Unit
  | .prim n => M.bind (Buf.popoff n) fun _ => M.pure ()
  | .chars n => repM (M.bind (Buf.popoff 1) fun _ => M.pure ()) n
  | .str w => M.bind (decStr lim w) fun _ => M.pure ()
  | .carr n t => repM (skipM lim t) n
  | .arr _ t => M.bind unpackU64 fun sz => decThread (decM lim t) sz (dflt t)
  | .seq t => M.bind unpackU64 fun sz => decThread (decM lim t) sz (dflt t)
  | .assoc _ _ t => M.bind unpackU64 fun sz => repM (M.bind (decM lim t (dflt t)) fun _ => M.pure ()) sz
  | .pair a b => M.bind (skipM lim a) fun _ => skipM lim b
  | .unit => M.pure ()
  | .excl _ => M.pure ()
  | .cst t => skipM lim t
  | .opt _ => M.throw .packError
  | .poly _ _ _ => M.throw .packError
end

/-! ### Specification vocabulary -/

/-- Values a type can hold. `lim` bounds strings to what can be allocated (including the terminating character). -/
def HasType (lim : Nat) : Ty → Val → Prop
  | .prim n, .raw l => l.length = n
  | .chars n, .raw l => l.length = n
  | .str w, .raw l => ∃ n, l.length = w * n ∧ w * (n + 1) ≤ lim
  | .carr n t, .seq l => l.length = n ∧ ∀ v ∈ l, HasType lim t v
  | .arr n t, .seq l => l.length = n ∧ n < W64 ∧ ∀ v ∈ l, HasType lim t v
  | .seq t, .seq l => l.length < W64 ∧ ∀ v ∈ l, HasType lim t v
  | .assoc lt multi t, .seq l => l.length < W64 ∧ (∀ v ∈ l, HasType lim t v) ∧
      l.Pairwise (fun x y => if multi then lt y x = false else lt x y = true)
  | .pair a b, .pair x y => HasType lim a x ∧ HasType lim b y
  | .unit, .unit => True
  | .excl _, _ => True
  | .cst t, v => HasType lim t v
  | .opt _, .null => True
  | .opt t, .ptr .unit v => HasType lim t v
  | .poly _ _ _, .null => True
  | .poly kt known f, .ptr k v => HasType lim kt k ∧ known k = true ∧ HasType lim (f k) v
  | _, _ => False

/-- An object that exists at the type: only the fixed-size parts matter to unpacking into it. -/
def Shape : Ty → Val → Prop
  | .carr n t, .seq l => l.length = n ∧ ∀ v ∈ l, Shape t v
  | .carr _ _, _ => False
  | .arr n t, .seq l => l.length = n ∧ ∀ v ∈ l, Shape t v
  | .arr _ _, _ => False
  | .pair a b, .pair x y => Shape a x ∧ Shape b y
  | .pair _ _, _ => False
  | _, _ => True

/-- No excluded or const parts. -/
def Plain : Ty → Prop
  | .prim _ | .chars _ | .str _ | .unit => True
  | .carr _ t | .arr _ t | .seq t | .assoc _ _ t | .opt t => Plain t
  | .pair a b => Plain a ∧ Plain b
  | .excl _ | .cst _ => False
  | .poly kt _ f => Plain kt ∧ ∀ k, Plain (f k)

/-- Types to which a const destination can be unpacked. -/
def ConstOK : Ty → Prop
  | .opt _ | .poly _ _ _ => False
  | .carr _ t | .cst t => ConstOK t
  | .pair a b => ConstOK a ∧ ConstOK b
  | _ => True

/-- What unpacking should produce: the packed value, except that excluded and const parts of the destination
are kept (inside containers and behind pointers: the default constructed ones). -/
def restore : Ty → Val → Val → Val
  | .carr _ t, d, v => .seq (List.zipWith (restore t) d.elems v.elems)
  | .arr _ t, d, v => .seq (List.zipWith (restore t) d.elems v.elems)
  | .seq t, _, v => .seq (v.elems.map (restore t (dflt t)))
  | .assoc _ _ t, _, v => .seq (v.elems.map (restore t (dflt t)))
  | .pair a b, d, v => .pair (restore a d.fst v.fst) (restore b d.snd v.snd)
  | .excl _, d, _ => d
  | .cst _, d, _ => d
  | .opt t, _, .ptr k v => .ptr k (restore t (dflt t) v)
  | .poly _ _ f, _, .ptr k v => .ptr k (restore (f k) (dflt (f k)) v)
  | _, _, v => v

/-- Well-formed types: sizes are positive and addressable, comparators of ordered containers are strict weak orders that do
not look at excluded parts, polymorphic type identifiers are plain. -/
def WF (lim : Nat) : Ty → Prop
  | .prim n => 0 < n ∧ n < 2 ^ 63
  | .chars n => n < 2 ^ 63
  | .str w => 0 < w
  | .carr _ t | .arr _ t | .seq t | .opt t => WF lim t
  | .assoc lt _ t => WF lim t ∧
      (∀ x y z, HasType lim t x → HasType lim t y → HasType lim t z → lt x y = true → lt y z = true → lt x z = true) ∧
      (∀ x y z, HasType lim t x → HasType lim t y → HasType lim t z → lt x y = false → lt y z = false → lt x z = false) ∧
      (∀ x, HasType lim t x → lt x x = false) ∧
      (∀ x y, HasType lim t x → HasType lim t y →
        lt (restore t (dflt t) x) (restore t (dflt t) y) = lt x y)
  | .pair a b => WF lim a ∧ WF lim b
  | .unit | .excl _ => True
  | .cst t => WF lim t ∧ ConstOK t
  | .poly kt known f => WF lim kt ∧ Plain kt ∧ ∀ k, known k = true → WF lim (f k)

/-- The bytes a value occupies on the wire. -/
def encode : Ty → Val → Bytes
  | .prim _, v => v.bytes
  | .chars _, v => v.bytes
  | .str w, v => leB 8 (v.bytes.length / w) ++ v.bytes
  | .carr _ t, v => v.elems.flatMap (encode t)
  | .arr _ t, v => leB 8 v.elems.length ++ v.elems.flatMap (encode t)
  | .seq t, v => leB 8 v.elems.length ++ v.elems.flatMap (encode t)
  | .assoc _ _ t, v => leB 8 v.elems.length ++ v.elems.flatMap (encode t)
  | .pair a b, v => encode a v.fst ++ encode b v.snd
  | .unit, _ => []
  | .excl _, _ => []
  | .cst t, v => encode t v
  | .opt t, .ptr _ v => 1 :: encode t v
  | .opt _, _ => [0]
  | .poly kt _ f, .ptr k v => 1 :: (encode kt k ++ encode (f k) v)
  | .poly _ _ _, _ => [0]

end Verif
