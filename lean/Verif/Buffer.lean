/-
Model of the in-memory serialisation buffer `classdesc::pack_t` (mode `buf`).
-/
namespace Verif

/-- 2^64: the modulus of `size_t`/`uint64` arithmetic (LP64 platform). -/
notation "W64" => (18446744073709551616 : Nat)

abbrev Bytes := List UInt8

/-- Exceptions the modelled code throws. -/
inductive Err
  | eof            -- pack_error("premature end of buffered data"/"unexpected end of data")
  | badAlloc       -- std::bad_alloc
  | lengthError    -- std::length_error from std::vector
  | packError      -- any other pack_error
  | invalidType    -- type lookup failure
deriving DecidableEq, Repr

/-- Kinds of undefined behaviour. -/
inductive UB
  | nullDeref | oob | badBool | dangling
deriving DecidableEq, Repr

/-- Outcome of a C++ operation. -/
inductive Res (α : Type) where
  | ok (a : α)
  | throw (e : Err)
  | ub (u : UB)
deriving DecidableEq, Repr

/-- `pack_t` in mode `buf`. pack_base.h:137-167.
`blk` is `m_data`: `none` is the null pointer, `some c` a heap block whose allocated extent holds `c`.
`size` is `m_size`, `pos` is `m_pos`. `f`, `mode`, `ptr_flag`, `alloced` are not represented here. -/
structure Buf where
  blk : Option Bytes
  size : Nat
  pos : Nat
deriving DecidableEq, Repr

/-- The allocator: `ok` says whether a request is granted, `junk` what fresh memory contains. -/
structure Alloc where
  ok : Bool
  junk : Nat → UInt8

/-- State and exception monad in which operations on one buffer run. The buffer survives a throw. -/
abbrev M (α : Type) := Buf → Res α × Buf

namespace M
def pure {α} (a : α) : M α := fun b => (.ok a, b)
def bind {α β} (m : M α) (f : α → M β) : M β := fun b =>
  match m b with
  | (.ok a, b') => f a b'
  | (.throw e, b') => (.throw e, b')
  | (.ub u, b') => (.ub u, b')
def throw {α} (e : Err) : M α := fun b => (.throw e, b)
def ub {α} (u : UB) : M α := fun b => (.ub u, b)
instance : Monad M where
  pure := M.pure
  bind := M.bind
end M

/-- `classdesc::realloc`, Realloc.h:20-29: grow/shrink keeping contents, malloc when the old block is null,
free (result null) when the new size is 0. A refused request yields null. -/
def crealloc (al : Alloc) (d : Option Bytes) (s : Nat) : Option Bytes :=
  if s = 0 then none
  else if al.ok then
    match d with
    | some c => some (c.take s ++ (List.range (s - c.length)).map (fun i => al.junk (c.length + i)))
    | none => some ((List.range s).map al.junk)
  else none

/-- `memcpy(d+off, xs, |xs|)`. A zero-length copy is a no-op. -/
def copyTo (d : Option Bytes) (off : Nat) (xs : Bytes) : Res (Option Bytes) :=
  if xs = [] then .ok d else
  match d with
  | none => .ub .nullDeref
  | some c => if off + xs.length ≤ c.length
      then .ok (some (c.take off ++ xs ++ c.drop (off + xs.length)))
      else .ub .oob

/-- `memcpy(x, d+off, n)`. A zero-length copy is a no-op. -/
def copyFrom (d : Option Bytes) (off n : Nat) : Res Bytes :=
  if n = 0 then .ok [] else
  match d with
  | none => .ub .nullDeref
  | some c => if off + n ≤ c.length then .ok ((c.drop off).take n) else .ub .oob

namespace Buf

/-- `pack_t()`: pack_base.h:216-220 with sz = 0. -/
def fresh : Buf := ⟨none, 0, 0⟩

/-- `pack_t(sz)`: pack_base.h:216-220. The declared size is counted as data although it is uninitialised. -/
def freshSized (al : Alloc) (sz : Nat) : Buf := ⟨crealloc al none sz, sz, 0⟩

/-- `packraw`, pack_base.h:251-262 (mode buf): the result of realloc is not checked. -/
def packraw (al : Alloc) (xs : Bytes) : M Unit := fun b =>
  let n := (b.size + xs.length) % W64
  let d := crealloc al b.blk n
  match copyTo d b.size xs with
  | .ok d' => (.ok (), ⟨d', n, b.pos⟩)
  | .throw e => (.throw e, { b with blk := d })
  | .ub u => (.ub u, { b with blk := d })

/-- `append`, pack_base.h:189-202 (mode buf): throws bad_alloc when realloc returned null;
`m_data` has been overwritten by then. -/
def append (al : Alloc) (xs : Bytes) : M Unit := fun b =>
  let n := (b.size + xs.length) % W64
  let d := crealloc al b.blk n
  match d with
  | none => (.throw .badAlloc, { b with blk := none })
  | some _ =>
    match copyTo d b.size xs with
    | .ok d' => (.ok (), ⟨d', n, b.pos⟩)
    | .throw e => (.throw e, { b with blk := d })
    | .ub u => (.ub u, { b with blk := d })

/-- `unpackraw`, pack_base.h:269-281 (mode buf); `s+m_pos>m_size` is evaluated modulo 2^64. -/
def unpackraw (n : Nat) : M Bytes := fun b =>
  if (n + b.pos) % W64 > b.size then (.throw .eof, b)
  else match copyFrom b.blk b.pos n with
    | .ok xs => (.ok xs, { b with pos := (b.pos + n) % W64 })
    | .throw e => (.throw e, b)
    | .ub u => (.ub u, b)

/-- `popoff`, pack_base.h:203-214 (mode buf): same check, different message (messages are not modelled). -/
def popoff (n : Nat) : M Bytes := fun b =>
  if (b.pos + n) % W64 > b.size then (.throw .eof, b)
  else match copyFrom b.blk b.pos n with
    | .ok xs => (.ok xs, { b with pos := (b.pos + n) % W64 })
    | .throw e => (.throw e, b)
    | .ub u => (.ub u, b)

/-- `operator bool`, pack_base.h:237. -/
def toBool (b : Buf) : Bool := b.pos < b.size

/-- `reseti`, pack_base.h:238 (f null). -/
def reseti (b : Buf) : Buf := { b with size := 0 }
/-- `reseto`, pack_base.h:239 (f null). -/
def reseto (b : Buf) : Buf := { b with pos := 0 }
/-- `seeki(-k)`, pack_base.h:240-244: unsigned wrap; the assertion `offs<=0` is the form of the argument. -/
def seeki (k : Nat) (b : Buf) : Buf := { b with size := (b.size + (W64 - k % W64)) % W64 }
/-- `seeko(offs)`, pack_base.h:245-249: unchecked, unsigned wrap. -/
def seeko (offs : Int) (b : Buf) : Buf := { b with pos := (((b.pos : Int) + offs) % (W64 : Int)).toNat }
/-- `clear`, pack_base.h:250. -/
def clear (_ : Buf) : Buf := ⟨none, 0, 0⟩
/-- `resize(s)`, pack_base.h:183-187. -/
def resize (al : Alloc) (s : Nat) : M Unit := fun b =>
  match crealloc al b.blk s with
  | none => (.throw .badAlloc, { b with blk := none })
  | some c => (.ok (), ⟨some c, s, b.pos⟩)

/-- The bytes the allocated block holds. -/
def mem (b : Buf) : Bytes := match b.blk with | none => [] | some c => c

/-- What the user sees as the contents: `data()[0 .. size())`. -/
def content (b : Buf) : Bytes := b.mem.take b.size

/-- Bytes not yet read. -/
def rest (b : Buf) : Bytes := b.content.drop b.pos

/-- Representation invariant: the block covers `m_size` and no counter has wrapped. -/
structure Inv (b : Buf) : Prop where
  cover : b.size ≤ b.mem.length
  lt : b.size < W64
  plt : b.pos < W64

/-- Advance the read position: used only to state results. -/
def adv (b : Buf) (n : Nat) : Buf := { b with pos := b.pos + n }

theorem inv_fresh : Inv fresh := ⟨by simp [fresh, mem], by simp [fresh], by simp [fresh]⟩

theorem content_length {b : Buf} (h : Inv b) : b.content.length = b.size := by
  have := h.cover
  simp [content]; omega

theorem rest_length {b : Buf} (h : Inv b) : b.rest.length = b.size - b.pos := by
  simp [rest, content_length h]

theorem crealloc_some (al : Alloc) (hok : al.ok = true) (d : Option Bytes) {s : Nat} (hs : s ≠ 0) :
    ∃ c, crealloc al d s = some c ∧ c.length = s ∧
      ∀ k, k ≤ s → k ≤ (match d with | none => [] | some c => c).length →
        c.take k = (match d with | none => [] | some c => c).take k := by
  cases d with
  | none =>
    refine ⟨_, by simp [crealloc, hs, hok]; rfl, by simp, ?_⟩
    intro k _ hk
    simp only [List.length_nil, Nat.le_zero] at hk
    subst hk; simp
  | some c =>
    refine ⟨_, by simp [crealloc, hs, hok]; rfl, by simp; omega, ?_⟩
    intro k hks hkc
    simp only at hkc
    rw [List.take_append_of_le_length (by simp; omega), List.take_take]
    congr 1; omega

/-- With a granted allocation and no wrap, `packraw` appends exactly `xs`. -/
theorem packraw_ok (al : Alloc) (hok : al.ok = true) (b : Buf) (xs : Bytes) (h : Inv b)
    (hw : b.size + xs.length < W64) :
    ∃ b', packraw al xs b = (.ok (), b') ∧ b'.content = b.content ++ xs ∧ b'.pos = b.pos ∧
      b'.size = b.size + xs.length ∧ Inv b' := by
  have hcov := h.cover
  have hmod : (b.size + xs.length) % W64 = b.size + xs.length := Nat.mod_eq_of_lt hw
  by_cases hxs : xs = []
  · subst hxs
    by_cases hz : b.size = 0
    · refine ⟨⟨none, 0, b.pos⟩, ?_, ?_, rfl, ?_, ?_⟩
      · simp [packraw, hz, crealloc, copyTo]
      · simp [content, mem, hz]
      · simp [hz]
      · exact ⟨by simp [mem], by simp, h.plt⟩
    · obtain ⟨c, hc, hlen, htk⟩ := crealloc_some al hok b.blk (s := b.size) hz
      refine ⟨⟨some c, b.size, b.pos⟩, ?_, ?_, rfl, ?_, ?_⟩
      · simp only [List.length_nil, Nat.add_zero] at hmod
        simp [packraw, hmod, hc, copyTo]
      · have := htk b.size (Nat.le_refl _) hcov
        simp only [content, mem, List.append_nil]; exact this
      · simp
      · exact ⟨by simp [mem, hlen], h.lt, h.plt⟩
  · have hpos : 0 < xs.length := List.length_pos_iff.mpr hxs
    have hs : b.size + xs.length ≠ 0 := by omega
    obtain ⟨c, hc, hlen, htk⟩ := crealloc_some al hok b.blk (s := b.size + xs.length) hs
    refine ⟨⟨some (c.take b.size ++ xs ++ c.drop (b.size + xs.length)), b.size + xs.length, b.pos⟩,
      ?_, ?_, rfl, rfl, ?_⟩
    · simp [packraw, hmod, hc, copyTo, hxs, hlen]
    · have h1 := htk b.size (by omega) hcov
      have h2 : c.drop (b.size + xs.length) = [] := by simp [hlen]
      have h3 : (c.take b.size ++ xs).length = b.size + xs.length := by simp [hlen]
      simp only [content, mem, h2, List.append_nil]
      rw [← h3, List.take_length, h1]
    · refine ⟨?_, hw, h.plt⟩
      simp [mem, hlen]

/-- `append` of a non-empty object behaves as `packraw`. -/
theorem append_ok (al : Alloc) (hok : al.ok = true) (b : Buf) (xs : Bytes) (hxs : xs ≠ []) (h : Inv b)
    (hw : b.size + xs.length < W64) :
    ∃ b', append al xs b = (.ok (), b') ∧ b'.content = b.content ++ xs ∧ b'.pos = b.pos ∧
      b'.size = b.size + xs.length ∧ Inv b' := by
  obtain ⟨b', h1, h2⟩ := packraw_ok al hok b xs h hw
  refine ⟨b', ?_, h2⟩
  have hpos : 0 < xs.length := List.length_pos_iff.mpr hxs
  have hmod : (b.size + xs.length) % W64 = b.size + xs.length := Nat.mod_eq_of_lt hw
  obtain ⟨c, hc, -, -⟩ := crealloc_some al hok b.blk (s := b.size + xs.length) (by omega)
  rw [← h1]
  simp [append, packraw, hmod, hc]

theorem copyFrom_ok (d : Option Bytes) (off n : Nat) (h : off + n ≤ (match d with | none => [] | some c => c).length) :
    copyFrom d off n = .ok (((match d with | none => [] | some c => c).drop off).take n) := by
  unfold copyFrom
  by_cases hn : n = 0
  · simp [hn]
  · cases d with
    | none => simp at h; omega
    | some c => simp at h; simp [hn, h]

theorem take_rest {b : Buf} (n : Nat) (hn : b.pos + n ≤ b.size) :
    b.rest.take n = (b.mem.drop b.pos).take n := by
  simp only [rest, content, List.drop_take, List.take_take]
  congr 1; omega

/-- A read that fits succeeds, delivers the next bytes and advances. -/
theorem unpackraw_ok {b : Buf} (h : Inv b) (n : Nat) (hn : b.pos + n ≤ b.size) :
    unpackraw n b = (.ok (b.rest.take n), b.adv n) := by
  have hlt := h.lt
  have hcov := h.cover
  have h1 : (n + b.pos) % W64 = n + b.pos := Nat.mod_eq_of_lt (by omega)
  have h2 : (b.pos + n) % W64 = b.pos + n := Nat.mod_eq_of_lt (by omega)
  have h3 : ¬ (n + b.pos > b.size) := by omega
  have h4 := copyFrom_ok b.blk b.pos n (Nat.le_trans hn hcov)
  simp only [unpackraw, h1, h3, if_false, h4, h2, adv]
  rw [take_rest n hn]; rfl

/-- A read that does not fit (and does not wrap) throws and leaves the buffer as it was. -/
theorem unpackraw_throw {b : Buf} (n : Nat) (hw : b.pos + n < W64) (hn : b.size < b.pos + n) :
    unpackraw n b = (.throw .eof, b) := by
  have h1 : (n + b.pos) % W64 = n + b.pos := Nat.mod_eq_of_lt (by omega)
  have h3 : n + b.pos > b.size := by omega
  simp [unpackraw, h1, h3]

theorem popoff_eq (n : Nat) : popoff n = unpackraw n := by
  funext b; simp [popoff, unpackraw, Nat.add_comm]

theorem inv_adv {b : Buf} (h : Inv b) (n : Nat) (hn : b.pos + n ≤ b.size) : Inv (b.adv n) :=
  ⟨h.cover, h.lt, by have := h.lt; simp [adv]; omega⟩

theorem rest_adv (b : Buf) (n : Nat) : (b.adv n).rest = b.rest.drop n := by
  simp [rest, adv, content, mem, List.drop_drop]

@[simp] theorem adv_zero (b : Buf) : b.adv 0 = b := rfl
theorem adv_adv (b : Buf) (n m : Nat) : (b.adv n).adv m = b.adv (n + m) := by simp [adv, Nat.add_assoc]
@[simp] theorem adv_size (b : Buf) (n : Nat) : (b.adv n).size = b.size := rfl
@[simp] theorem adv_pos (b : Buf) (n : Nat) : (b.adv n).pos = b.pos + n := rfl

end Buf
end Verif
