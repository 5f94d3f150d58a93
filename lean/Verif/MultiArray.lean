/-
`classdesc::MultiArray<T,Rank>`: multiArray.h:22-161.  A MultiArray is a view of
storage owned by someone else; the model keeps the offset into that storage instead of the
pointer.  `size_t` arithmetic wraps at 2^64.  The rank is the length of the dimension list.
-/
namespace Verif.MultiArray

def W : Nat := 18446744073709551616

/-- Members `m_data`, `dim`, `m_stride`: multiArray.h:26-28 (for rank 1 `m_size` is the only
dimension and there is no stride, multiArray.h:133-134). -/
structure MA where
  data : Nat
  dim : List Nat
  stride : Nat
  deriving DecidableEq, Repr

/-- `constructDims` from C++17 on: multiArray.h:32-45.  The fold multiplies all dimensions,
then the last is divided out; dividing by a last dimension 0 is undefined (`none`). -/
def stride17 (dim : List Nat) : Option Nat :=
  let all := dim.foldl (fun s d => s * d % W) 1
  match dim.getLast? with
  | none => some all
  | some l => if l = 0 then none else some (all / l)

/-- `constructDims` before C++17: multiArray.h:47-59: all dimensions but the last. -/
def stride11 (dim : List Nat) : Option Nat :=
  some (dim.dropLast.foldl (fun s d => s * d % W) 1)

/-- Which of the two definitions is compiled, multiArray.h:32,46. -/
inductive Std | cpp11 | cpp17
  deriving DecidableEq, Repr

def strideArgs : Std → List Nat → Option Nat
  | .cpp11 => stride11
  | .cpp17 => stride17

/-- `MultiArray(T* data, Args... args)`: multiArray.h:68-72; rank 1: multiArray.h:141, which
has no stride. -/
def mkArgs (std : Std) (data : Nat) (dim : List Nat) : Option MA :=
  if dim.length = 1 then some ⟨data, dim, 1⟩
  else (strideArgs std dim).map fun s => ⟨data, dim, s⟩

/-- `MultiArray(T* data, const size_t a_dim[])`: multiArray.h:76-79; the stride keeps its
initial value 1 (multiArray.h:28).  Rank 1: multiArray.h:142. -/
def mkArray (data : Nat) (dim : List Nat) : MA := ⟨data, dim, 1⟩

/-- `size()`: multiArray.h:81; rank 1: 151. -/
def MA.size (a : MA) : Nat := a.dim.getLast?.getD 0

/-- `operator[]` for rank > 1: multiArray.h:83-88.  The sub-array is made by the constructor
taking a dimension array, which copies the first Rank-1 dimensions.  (For rank 3 and above on an array that is not
const, 86-88, the constructor of 68-72 is the better match for the member `dim`, and this does not compile.) -/
def MA.sub (a : MA) (i : Nat) : MA := mkArray (a.data + i * a.stride % W) a.dim.dropLast

/-- `operator[]` for rank 1: multiArray.h:143-144: the offset of the element. -/
def MA.elem (a : MA) (i : Nat) : Nat := a.data + i

/-- `a[i][j]...`: the offset of the element addressed by one index per dimension. -/
def MA.addr (a : MA) : List Nat → Nat
  | [] => a.data
  | [i] => a.elem i
  | i :: r => (a.sub i).addr r

/-- The iterator of rank > 1, multiArray.h:93-117: a sub-array and the stride. -/
structure It where
  array : MA
  stride : Nat
  deriving DecidableEq, Repr

/-- `begin()`: multiArray.h:105-106,124. -/
def MA.begin (a : MA) : It := ⟨mkArray a.data a.dim.dropLast, a.stride⟩

/-- `operator++`: multiArray.h:107, `advance` 158-161. -/
def It.next (it : It) : It := { it with array := { it.array with data := it.array.data + it.stride } }

/-- `operator+=`: multiArray.h:113. -/
def It.plus (it : It) (i : Nat) : It :=
  { it with array := { it.array with data := it.array.data + i * it.stride % W } }

/-- `end()`: multiArray.h:125. -/
def MA.end_ (a : MA) : It := a.begin.plus a.size

end Verif.MultiArray
