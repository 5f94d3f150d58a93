import Verif.CodecHostile
import Verif.BufferHist
/-
Models of the remaining binary (un)packers: poly, object pointers, weak_ptr, BinStream vectors, Iterator,
unordered containers, deepEq.
-/
namespace Verif
open Buf

/-! ### deepEq -/

/-- `deepEq(x,y)`, pack_base.h:314-317: pack both to fresh buffers and compare. `mc` is memcmp. -/
def deepEq (al : Alloc) (mc : Bytes → Bytes → Int) (t : Ty) (x y : Val) : Res Bool :=
  match packM al t x Buf.fresh with
  | (.ok _, xb) =>
    match packM al t y Buf.fresh with
    | (.ok _, yb) => .ok (Buf.cmp mc xb yb == 0)
    | (.throw e, _) => .throw e
    | (.ub u, _) => .ub u
  | (.throw e, _) => .throw e
  | (.ub u, _) => .ub u

/-! ### poly and object pointers

An owning polymorphic pointer is `none`, or `some (k, v)`: dynamic type number `k` and contents `v` of type `f k`. -/

abbrev PolyVal := Option (Nat × Val)

/-- access_pack<poly>, poly.h:158-170. -/
def packPoly (al : Alloc) (f : Nat → Ty) : PolyVal → M Unit
  | none => Buf.append al [0]
  | some (k, v) => M.bind (Buf.append al [1]) fun _ => M.bind (Buf.append al (leB 4 k)) fun _ => packM al (f k) v

/-- The object unpacked into, poly.h:182-183: the present one if it has the right type, else a clone of the registered one. -/
def polyTarget (table : Nat → Option Val) (k : Nat) : PolyVal → Option Val
  | some (k', v) => if k' = k then some v else table k
  | none => table k

/-- access_unpack<poly>, poly.h:172-189. `table k` is the registered prototype (`TypeTable[k]`, poly.h:28), `none` when
the slot is null or out of range. An object of the right type is unpacked in place; `valid==false` does nothing. -/
def unpackPoly (lim : Nat) (f : Nat → Ty) (table : Nat → Option Val) (d : PolyVal) : M PolyVal :=
  M.bind decBool fun valid =>
    if valid then
      M.bind (Buf.popoff 4) fun bs =>
        let k := leV bs
        match polyTarget table k d with
        | none => M.ub .nullDeref
        | some v0 => M.bind (decM lim (f k) v0) fun v => M.pure (some (k, v))
    else M.pure d

/-- pack of shared_ptr<T> with T derived from object, object.h:105-117: type+1, or 0 for null. -/
def packObj (al : Alloc) (f : Nat → Ty) : PolyVal → M Unit
  | none => Buf.append al (leB 4 0)
  | some (k, v) => M.bind (Buf.append al (leB 4 (k + 1))) fun _ => packM al (f k) v

/-- unpack of shared_ptr<T>, object.h:119-135. `table` as above (`object::create`, object.h:51-54); `cast k` says whether
objects of type `k` are derived from `T` (dynamic_pointer_cast gives null otherwise). Zero does nothing. -/
def unpackObj (lim : Nat) (f : Nat → Ty) (table : Nat → Option Val) (cast : Nat → Bool) (d : PolyVal) : M PolyVal :=
  M.bind (Buf.popoff 4) fun bs =>
    let n := leV bs
    if n = 0 then M.pure d
    else match table (n - 1) with
      | none => M.ub .oob
      | some v0 =>
        if cast (n - 1) then M.bind (decM lim (f (n - 1)) v0) fun v => M.pure (some (n - 1, v))
        else M.ub .nullDeref

/-- access_unpack<weak_ptr>, polyAccessPack.h:113-125 (non-polymorphic element). `target` is what `a.lock()` gives. -/
def unpackWeak (lim : Nat) (t : Ty) (target : Option Val) : M (Option Val) :=
  M.bind (decM lim (.opt t) .null) fun tmp =>
    match target, tmp with
    | none, _ => M.pure none
    | some _, .ptr _ v => M.pure (some v)
    | some _, _ => M.ub .nullDeref

/-! ### BinStream vectors -/

/-- What happened to a BinStream vector read: the result, and the number of bytes requested from the allocator. -/
structure VecRead where
  res : Res Bytes
  buf : Buf
  requested : Option Nat

/-- `BinStream::operator>>(vector<T>&)`, pack_stl.h:91-102, `w = sizeof(T)`. The check is in 64-bit arithmetic.
`resize` throws length_error beyond `max_size() = (2^63-1)/w`, else asks the allocator, which grants at most `lim` bytes. -/
def binVec (lim w : Nat) (b : Buf) : VecRead :=
  match unpackU64 b with
  | (.throw e, b1) => ⟨.throw e, b1, none⟩
  | (.ub u, b1) => ⟨.ub u, b1, none⟩
  | (.ok sz, b1) =>
    if (b1.size + (W64 - b1.pos)) % W64 < w * sz % W64 then ⟨.throw .packError, b1, none⟩
    else if 2 ^ 63 - 1 < w * sz then ⟨.throw .lengthError, b1, none⟩
    else if lim < w * sz then ⟨.throw .badAlloc, b1, some (w * sz)⟩
    else if sz = 0 then ⟨.ok [], b1, some 0⟩
    else match Buf.unpackraw (w * sz) b1 with
      | (r, b2) => ⟨r, b2, some (w * sz)⟩

/-- `BinStream::operator<<(vector<T>)`, pack_stl.h:81-89: `xs` is the object representation of the elements. -/
def binVecPack (al : Alloc) (w : Nat) (xs : Bytes) : M Unit :=
  M.bind (packU64 al (xs.length / w)) fun _ => if xs = [] then M.pure () else Buf.packraw al xs

/-! ### Iterator -/

/-- access_pack<Iterator>, pack_stl.h:197-207: the distance from begin, 0 without a container. -/
def packIter (al : Alloc) (i : Option Nat) : M Unit := packU64 al (i.getD 0)

/-- access_unpack<Iterator>, pack_stl.h:209-223: `cont` is the container the destination iterator refers to. Result: the
index it denotes. Advancing beyond end() is undefined. -/
def unpackIter (cont : Option (List Val)) : M (Option Nat) :=
  M.bind unpackU64 fun i =>
    match cont with
    | none => M.pure none
    | some l => if i ≤ l.length then M.pure (some i) else M.ub .oob

/-! ### Unordered containers -/

/-- What the standard says about `insert` of an unordered set or map (`multi = false`) or multiset/multimap, with
elements listed in iteration order: nothing about where the element goes. -/
structure UInsert (eqv : Val → Val → Bool) (multi : Bool) (put : Val → List Val → List Val) : Prop where
  skip : multi = false → ∀ e l, (∃ x ∈ l, eqv e x = true) → put e l = l
  add : ∀ e l, (multi = true ∨ ∀ x ∈ l, eqv e x = false) → (put e l).Perm (e :: l)

/-- unpack of an unordered container, pack_stl.h:162-175 (they are associative containers, classdesc.h:341-350).
Packing is `packM` for `.seq`: count and elements in iteration order, pack_stl.h:105-112. -/
def unpackUnordered (lim : Nat) (put : Val → List Val → List Val) (t : Ty) : M Val :=
  M.bind unpackU64 fun sz => M.bind (decAssoc (decM lim t (dflt t)) put sz []) fun l => M.pure (.seq l)

theorem fold_put {eqv : Val → Val → Bool} {multi : Bool} {put : Val → List Val → List Val} (hp : UInsert eqv multi put)
    (symm : ∀ x y, eqv x y = eqv y x) : ∀ (l acc : List Val),
    (multi = true ∨ ((acc ++ l).Pairwise fun x y => eqv x y = false)) →
    (l.foldl (fun a v => put v a) acc).Perm (acc ++ l)
  | [], acc, _ => by simp
  | e :: l, acc, h => by
    simp only [List.foldl_cons]
    have h1 : (put e acc).Perm (e :: acc) := by
      apply hp.add
      rcases h with h | h
      · exact .inl h
      · right
        intro x hx
        rw [symm]
        exact (List.pairwise_append.1 h).2.2 x hx e (by simp)
    have h2 : (put e acc ++ l).Perm (acc ++ e :: l) :=
      (h1.append_right l).trans (List.perm_middle.symm)
    refine (fold_put hp symm l (put e acc) ?_).trans h2
    rcases h with h | h
    · exact .inl h
    · right
      refine (h2.symm.pairwise_iff ?_).1 h
      intro x y hxy; rw [symm]; exact hxy

end Verif
