import Verif.CodecMore
import Verif.Props.Buffer
/-
Property theorems about binary packing: C03 - C08, C17, C41, C42, C47, C48, C51.
-/
namespace Verif
open Buf

/-- Buffer states in which a round trip is done: consistent, cursor at the end of what was written before. -/
structure AtEnd (b : Buf) : Prop where
  inv : b.Inv
  pos : b.pos = b.size

theorem rest_of_append {b b1 : Buf} {xs : Bytes} (h : AtEnd b) (hc : b1.content = b.content ++ xs) (hp : b1.pos = b.pos) :
    b1.rest = xs := by
  rw [Buf.rest, hc, hp, h.pos, ← content_length h.inv, List.drop_left]

/-- A type exercising most of the universe: a struct with an int, a string, a set of ints, a vector of pairs of an int and a
smart pointer to a string, and an excluded int. -/
def exLt (x y : Val) : Bool := decide (leV x.bytes < leV y.bytes)
def exTy : Ty := .pair (.prim 4) (.pair (.str 1) (.pair (.assoc exLt false (.prim 4))
  (.pair (.seq (.pair (.prim 4) (.opt (.str 1)))) (.pair (.excl (.raw [0, 0, 0, 0])) .unit))))
def exVal : Val := .pair (.raw [1, 2, 3, 4]) (.pair (.raw [104, 105]) (.pair (.seq [.raw [1, 0, 0, 0], .raw [2, 0, 0, 0]])
  (.pair (.seq [.pair (.raw [5, 0, 0, 0]) (.ptr .unit (.raw [97])), .pair (.raw [6, 0, 0, 0]) .null])
    (.pair (.raw [9, 9, 9, 9]) .unit))))

theorem exTy_wf : WF 1000 exTy := by
  refine ⟨by simp [WF], by simp [WF], ⟨by simp [WF], ?_, ?_, ?_, ?_⟩, ⟨by simp [WF], by simp [WF]⟩, trivial, trivial⟩
  · intro x y z _ _ _ h1 h2; simp only [exLt, decide_eq_true_eq] at *; omega
  · intro x y z _ _ _ h1 h2; simp only [exLt, decide_eq_false_iff_not] at *; omega
  · intro x _; simp [exLt]
  · intro x y _ _; rfl

theorem exVal_has : HasType 1000 exTy exVal := by
  refine ⟨rfl, ⟨2, rfl, by decide⟩, ⟨by decide, ?_, ?_⟩, ⟨by decide, ?_⟩, trivial, trivial⟩
  · intro v hv; simp at hv; rcases hv with rfl | rfl <;> rfl
  · simp [exLt, Val.bytes, leV]
  · intro v hv; simp at hv; rcases hv with rfl | rfl
    · exact ⟨rfl, 1, rfl, by decide⟩
    · exact ⟨rfl, trivial⟩

/-! ### C03: round trip -/

/-- C03. Packing a value into any buffer whose earlier data have been read, then writing anything else, then unpacking
into any existing object of the type: the value is restored and exactly the bytes written for it are consumed. -/
theorem C03_roundtrip (al : Alloc) (hok : al.ok = true) (lim : Nat) (hlim : lim < 2 ^ 63) (t : Ty) (hw : WF lim t)
    (v d : Val) (hv : HasType lim t v) (hd : Shape t d) (b : Buf) (hb : AtEnd b)
    (tail : Bytes) (hsz : b.size + (encode t v).length + tail.length < 2 ^ 63) :
    ∃ b1 b2, packM al t v b = (.ok (), b1) ∧ Buf.packraw al tail b1 = (.ok (), b2) ∧
      decM lim t d b2 = (.ok (restore t d v), { b2 with pos := b1.size }) := by
  obtain ⟨b1, e1, c1, p1, s1, i1⟩ := packs al hok lim t v hw hv b hb.inv (by omega)
  obtain ⟨b2, e2, c2, p2, s2, i2⟩ := packraw_ok al hok b1 tail i1 (by omega)
  refine ⟨b1, b2, e1, e2, ?_⟩
  have hp := hb.pos
  have hr : b2.rest = encode t v ++ tail := rest_of_append hb (by rw [c2, c1, List.append_assoc]) (by omega)
  rw [(reads_both lim hlim t hw).1 d v hd hv b2 ⟨i2, by omega, by omega⟩ tail hr]
  have : b2.pos + (encode t v).length = b1.size := by omega
  simp only [Buf.adv, this]

/-- C03 for types with no excluded or const members: exactly the packed value, whatever the destination held. -/
theorem C03_roundtrip_plain (al : Alloc) (hok : al.ok = true) (lim : Nat) (hlim : lim < 2 ^ 63) (t : Ty) (hw : WF lim t)
    (hp : Plain t) (v d : Val) (hv : HasType lim t v) (hd : HasType lim t d) (b : Buf) (hb : AtEnd b)
    (tail : Bytes) (hsz : b.size + (encode t v).length + tail.length < 2 ^ 63) :
    ∃ b1 b2, packM al t v b = (.ok (), b1) ∧ Buf.packraw al tail b1 = (.ok (), b2) ∧
      decM lim t d b2 = (.ok v, { b2 with pos := b1.size }) := by
  have := C03_roundtrip al hok lim hlim t hw v d hv (shape_of_hasType lim t d hd) b hb tail hsz
  rwa [restore_plain lim t d v hp (shape_of_hasType lim t d hd) hv] at this

example : ∃ b1 b2, packM ⟨true, fun _ => 7⟩ exTy exVal Buf.fresh = (.ok (), b1) ∧
    Buf.packraw ⟨true, fun _ => 7⟩ [1, 2] b1 = (.ok (), b2) ∧
    decM 1000 exTy (dflt exTy) b2 = (.ok (restore exTy (dflt exTy) exVal), { b2 with pos := b1.size }) :=
  C03_roundtrip _ rfl 1000 (by decide) exTy exTy_wf exVal _ exVal_has (shape_dflt _) _ ⟨Buf.inv_fresh, rfl⟩ [1, 2] (by decide)

/-- In that example only the excluded member differs from the packed value. -/
example : restore exTy (dflt exTy) exVal = .pair (.raw [1, 2, 3, 4]) (.pair (.raw [104, 105])
  (.pair (.seq [.raw [1, 0, 0, 0], .raw [2, 0, 0, 0]])
  (.pair (.seq [.pair (.raw [5, 0, 0, 0]) (.ptr .unit (.raw [97])), .pair (.raw [6, 0, 0, 0]) .null])
    (.pair (.raw [0, 0, 0, 0]) .unit)))) := rfl

/-! ### C04: heterogeneous streams -/

/-- One object in a stream: its type, its value, and the destination it will be read into. -/
structure Item where
  ty : Ty
  val : Val
  dst : Val

/-- `b << x1 << x2 ...`. -/
def streamOut (al : Alloc) : List Item → M Unit
  | [] => M.pure ()
  | i :: is => M.bind (packM al i.ty i.val) fun _ => streamOut al is

/-- `b >> y1 >> y2 ...`. -/
def streamIn (lim : Nat) : List Item → M (List Val)
  | [] => M.pure []
  | i :: is => M.bind (decM lim i.ty i.dst) fun v => M.bind (streamIn lim is) fun vs => M.pure (v :: vs)

def Item.OK (lim : Nat) (i : Item) : Prop := WF lim i.ty ∧ HasType lim i.ty i.val ∧ Shape i.ty i.dst

theorem streamOut_appends (al : Alloc) (hok : al.ok = true) (lim : Nat) : ∀ is : List Item, (∀ i ∈ is, i.OK lim) →
    Appends (streamOut al is) (is.flatMap fun i => encode i.ty i.val)
  | [], _ => Appends.pure
  | i :: is, h => by
    rw [List.flatMap_cons]
    have hi := h i (by simp)
    exact Appends.bind (packs al hok lim _ _ hi.1 hi.2.1) (streamOut_appends al hok lim is fun j hj => h j (by simp [hj]))

theorem streamIn_reads (lim : Nat) (hlim : lim < 2 ^ 63) : ∀ is : List Item, (∀ i ∈ is, i.OK lim) →
    Reads (streamIn lim is) (is.flatMap fun i => encode i.ty i.val) (is.map fun i => restore i.ty i.dst i.val)
  | [], _ => Reads.pure _
  | i :: is, h => by
    rw [List.flatMap_cons]
    have hi := h i (by simp)
    exact Reads.bind ((reads_both lim hlim i.ty hi.1).1 _ _ hi.2.2 hi.2.1)
      (Reads.bind' (streamIn_reads lim hlim is fun j hj => h j (by simp [hj])) rfl)

/-- C04. Streaming any list of values out and in again delivers them in order, and then nothing is left to read. -/
theorem C04_stream (al : Alloc) (hok : al.ok = true) (lim : Nat) (hlim : lim < 2 ^ 63) (is : List Item)
    (h : ∀ i ∈ is, i.OK lim) (b : Buf) (hb : AtEnd b)
    (hsz : b.size + (is.flatMap fun i => encode i.ty i.val).length < 2 ^ 63) :
    ∃ b1 b2, streamOut al is b = (.ok (), b1) ∧
      streamIn lim is b1 = (.ok (is.map fun i => restore i.ty i.dst i.val), b2) ∧
      b2.toBool = false ∧ b2.content = b1.content := by
  obtain ⟨b1, e1, c1, p1, s1, i1⟩ := streamOut_appends al hok lim is h b hb.inv (by omega)
  have hr := rest_of_append hb c1 p1
  have hp := hb.pos
  refine ⟨b1, _, e1, streamIn_reads lim hlim is h b1 ⟨i1, by omega, by omega⟩ [] (by simpa using hr), ?_, rfl⟩
  have h0 : b1.pos = b.size := by omega
  simp [Buf.toBool, Buf.adv, h0, s1]

example : ∃ b1 b2, streamOut ⟨true, fun _ => 7⟩ [⟨exTy, exVal, dflt exTy⟩, ⟨.prim 4, .raw [1, 2, 3, 4], .raw [0, 0, 0, 0]⟩] Buf.fresh
      = (.ok (), b1) ∧
    streamIn 1000 [⟨exTy, exVal, dflt exTy⟩, ⟨.prim 4, .raw [1, 2, 3, 4], .raw [0, 0, 0, 0]⟩] b1 =
      (.ok [restore exTy (dflt exTy) exVal, .raw [1, 2, 3, 4]], b2) ∧ b2.toBool = false ∧ b2.content = b1.content :=
  C04_stream _ rfl 1000 (by decide) _ (by
    intro i hi; simp at hi; rcases hi with rfl | rfl
    · exact ⟨exTy_wf, exVal_has, shape_dflt _⟩
    · exact ⟨by simp [WF], by simp [HasType], by simp [Shape]⟩) _ ⟨Buf.inv_fresh, rfl⟩ (by decide)

/-! ### C05: truncation -/

/-- C05. If the unread data are a strict prefix of the packing of a value, unpacking throws. -/
theorem C05_truncation (al : Alloc) (hok : al.ok = true) (lim : Nat) (hlim : lim < 2 ^ 63) (t : Ty) (hw : WF lim t)
    (v d : Val) (hv : HasType lim t v) (hd : Shape t d) (b1 : Buf) (hp : packM al t v Buf.fresh = (.ok (), b1))
    (hsz : (encode t v).length < W64) (b : Buf) (hb : b.Inv) (hs : b.size < 2 ^ 63) (hpos : b.pos ≤ b.size)
    (cut : Bytes) (hcut : cut ≠ []) (hpre : b.rest ++ cut = b1.content) :
    ∃ e b', decM lim t d b = (.throw e, b') := by
  obtain ⟨b1', e1, c1, -⟩ := packs al hok lim t v hw hv Buf.fresh Buf.inv_fresh (by simp [Buf.fresh]; omega)
  rw [e1] at hp
  simp only [Prod.mk.injEq, true_and] at hp
  subst hp
  have hc : b1'.content = encode t v := by rw [c1]; simp [Buf.fresh, Buf.content, Buf.mem]
  exact (truncs_both lim hlim t hw).1 d v hd hv b ⟨hb, hs, hpos⟩ cut hcut (by rw [hpre, hc])

example : ∃ e b', decM 1000 exTy (dflt exTy) ⟨some ((encode exTy exVal).take 20), 20, 0⟩ = (.throw e, b') :=
  (truncs_both 1000 (by decide) exTy exTy_wf).1 _ exVal (shape_dflt _) exVal_has _
    ⟨⟨by decide, by decide, by decide⟩, by decide, by decide⟩ ((encode exTy exVal).drop 20) (by decide) (by decide)

/-! ### C06: hostile input -/

/-- The full C06 claim for a type: no undefined behaviour on any input. -/
def C06_claim (lim : Nat) (t : Ty) : Prop := ∀ (d : Val) (b : Buf), b.Inv → b.size < 2 ^ 63 → b.pos ≤ b.size →
  ∀ u, (decM lim t d b).1 ≠ .ub u

/-- C06, the part that holds. On arbitrary bytes that do not contain eight consecutive 0xFF, unpacking any type leaves the
buffer contents alone, moves the position forward within the data, and never has undefined behaviour if the type has no
smart pointers; with smart pointers the only one possible is testing an invalid bool.
Missing: inputs with eight consecutive 0xFF (see `C06_string_fails`); bool representations (see `C06_bool_fails`);
memory exhaustion and time taken for huge declared counts. -/
theorem C06_partial (lim : Nat) (hlim : lim < 2 ^ 63) (t : Ty) (hw : WF lim t) (d : Val) (b : Buf) (hb : b.Inv)
    (hs : b.size < 2 ^ 63) (hp : b.pos ≤ b.size) (hf : NoFF8 b) :
    (∃ k, b.pos + k ≤ b.size ∧ (decM lim t d b).2 = { b with pos := b.pos + k }) ∧
    (∀ u, (decM lim t d b).1 = .ub u → u = .badBool) ∧
    (NoPtr t → ∀ u, (decM lim t d b).1 ≠ .ub u) := by
  obtain ⟨k, h1, h2, h3⟩ := (safe_both lim hlim t hw).1 d b ⟨hb, hs, hp⟩ hf
  exact ⟨⟨k, h1, h2⟩, fun u hu => (h3 u hu).1, fun hn u hu => (h3 u hu).2 hn⟩

/-- C06 fails for strings: eight 0xFF bytes declare a length of 2^64-1; `length+1` wraps to 0, the bounds check wraps, and
the copy overruns its destination. -/
theorem C06_string_fails (lim : Nat) : ¬ C06_claim lim (.str 1) := by
  intro h
  have hle : leV [255, 255, 255, 255, 255, 255, 255, 255] = 18446744073709551615 := by decide
  apply h (.raw []) ⟨some (List.replicate 8 255), 8, 0⟩ ⟨by decide, by decide, by decide⟩ (by decide) (by decide) .oob
  simp [decM, decStr, unpackU64, M.bind, Buf.popoff, copyFrom, M.pure, hle, unpackrawInto]

/-- C06 fails for smart pointers: any first byte other than 0 and 1. -/
theorem C06_bool_fails (lim : Nat) (t : Ty) : ¬ C06_claim lim (.opt t) := by
  intro h
  apply h .null ⟨some [2], 1, 0⟩ ⟨by decide, by decide, by decide⟩ (by decide) (by decide) .badBool
  simp [decM, decBool, M.bind, Buf.popoff, copyFrom, M.pure, M.ub]

example : WF 1000 exTy ∧ NoPtr (.seq (.pair (.str 1) (.prim 8))) ∧ NoFF8 ⟨some [255, 255, 0, 7], 4, 0⟩ :=
  ⟨exTy_wf, ⟨trivial, trivial⟩, fun p h => by
    have := congrArg List.length h
    simp [Buf.content, Buf.mem] at this; omega⟩

/-! ### C07: const destinations -/

/-- C07. Unpacking a packed value to a const object leaves it alone and moves the position exactly as unpacking to a mutable
object does, whatever follows. -/
theorem C07_skip (al : Alloc) (hok : al.ok = true) (lim : Nat) (hlim : lim < 2 ^ 63) (t : Ty) (hw : WF lim t)
    (hc : ConstOK t) (v d c : Val) (hv : HasType lim t v) (hd : Shape t d) (b : Buf) (hb : AtEnd b)
    (tail : Bytes) (hsz : b.size + (encode t v).length + tail.length < 2 ^ 63) :
    ∃ b1 b2 x, packM al t v b = (.ok (), b1) ∧ Buf.packraw al tail b1 = (.ok (), b2) ∧
      decM lim (.cst t) c b2 = (.ok c, { b2 with pos := b1.size }) ∧
      decM lim t d b2 = (.ok x, { b2 with pos := b1.size }) := by
  obtain ⟨b1, b2, h1, h2, h3⟩ := C03_roundtrip al hok lim hlim t hw v d hv hd b hb tail hsz
  obtain ⟨b1', b2', h1', h2', h3'⟩ := C03_roundtrip al hok lim hlim (.cst t) ⟨hw, hc⟩ v c (by cases v <;> exact hv)
    (by simp [Shape]) b hb tail hsz
  have e1 : packM al (.cst t) v b = packM al t v b := by cases v <;> rfl
  rw [e1, h1] at h1'; simp only [Prod.mk.injEq, true_and] at h1'; subst h1'
  rw [h2] at h2'; simp only [Prod.mk.injEq, true_and] at h2'; subst h2'
  exact ⟨b1, b2, _, h1, h2, h3', h3⟩

example : ConstOK (.pair (.str 1) (.seq (.prim 4))) ∧ WF 1000 (.pair (.str 1) (.seq (.prim 4))) ∧
    HasType 1000 (.pair (.str 1) (.seq (.prim 4))) (.pair (.raw [1]) (.seq [.raw [1, 2, 3, 4]])) :=
  ⟨⟨trivial, trivial⟩, ⟨by simp [WF], by simp [WF]⟩, ⟨1, rfl, by decide⟩, by decide, by simp [HasType]⟩

/-- On data that are not a packing of the type, the two can differ: an std::array unpacked from a longer sequence reads its
own number of elements when mutable but all of them when const. -/
theorem C07_array_differs (lim : Nat) : ∃ b p q x, decM lim (.arr 1 (.prim 1)) (.seq [.raw [0]]) b = (.ok x, { b with pos := p }) ∧
    skipM lim (.arr 1 (.prim 1)) b = (.ok (), { b with pos := q }) ∧ p ≠ q := by
  refine ⟨⟨some [2, 0, 0, 0, 0, 0, 0, 0, 5, 6], 10, 0⟩, 9, 10, .seq [.raw [5]], ?_, ?_, by decide⟩
  · have : leV [2, 0, 0, 0, 0, 0, 0, 0] = 2 := by decide
    simp [decM, unpackU64, M.bind, Buf.popoff, copyFrom, M.pure, decIn, this, Val.elems]
  · have : leV [2, 0, 0, 0, 0, 0, 0, 0] = 2 := by decide
    simp [skipM, decThread, decM, unpackU64, M.bind, Buf.popoff, copyFrom, M.pure, this]

/-! ### C08: deepEq -/

theorem deepEq_val (al : Alloc) (hok : al.ok = true) (mc : Bytes → Bytes → Int) (hm : MemcmpOK mc) (lim : Nat)
    (t : Ty) (hw : WF lim t) (x y : Val) (hx : HasType lim t x) (hy : HasType lim t y)
    (sx : (encode t x).length < W64) (sy : (encode t y).length < W64) :
    ∃ r, deepEq al mc t x y = .ok r ∧ (r = true ↔ encode t x = encode t y) := by
  obtain ⟨b1, e1, c1, -, -, i1⟩ := packs al hok lim t x hw hx Buf.fresh Buf.inv_fresh (by simp [Buf.fresh]; omega)
  obtain ⟨b2, e2, c2, -, -, i2⟩ := packs al hok lim t y hw hy Buf.fresh Buf.inv_fresh (by simp [Buf.fresh]; omega)
  refine ⟨_, by rw [deepEq, e1, e2], ?_⟩
  rw [beq_iff_eq, cmp_eq_zero hm i1 i2, c1, c2]
  simp [Buf.fresh, Buf.content, Buf.mem]

/-- C08. For every type without excluded members and any conforming memcmp, deepEq succeeds and is equality.
(Values of fundamental type are equal when their object representations are.) -/
theorem C08_deepEq (al : Alloc) (hok : al.ok = true) (mc : Bytes → Bytes → Int) (hm : MemcmpOK mc) (lim : Nat)
    (hlim : lim < 2 ^ 63) (t : Ty) (hw : WF lim t) (hp : Plain t) (x y : Val) (hx : HasType lim t x) (hy : HasType lim t y)
    (sx : (encode t x).length < W64) (sy : (encode t y).length < W64) :
    ∃ r, deepEq al mc t x y = .ok r ∧ (r = true ↔ x = y) := by
  obtain ⟨r, h1, h2⟩ := deepEq_val al hok mc hm lim t hw x y hx hy sx sy
  refine ⟨r, h1, h2.trans ?_⟩
  have := inj lim hlim t hw x y hx hy [] []
  simp only [List.append_nil, and_true] at this
  rw [this, agree_plain lim t hp x y hx hy]

/-- With excluded members: deepEq is equality of everything else (const members included). -/
theorem C08_deepEq_excluded (al : Alloc) (hok : al.ok = true) (mc : Bytes → Bytes → Int) (hm : MemcmpOK mc) (lim : Nat)
    (hlim : lim < 2 ^ 63) (t : Ty) (hw : WF lim t) (x y : Val) (hx : HasType lim t x) (hy : HasType lim t y)
    (sx : (encode t x).length < W64) (sy : (encode t y).length < W64) :
    ∃ r, deepEq al mc t x y = .ok r ∧ (r = true ↔ Agree t x y) := by
  obtain ⟨r, h1, h2⟩ := deepEq_val al hok mc hm lim t hw x y hx hy sx sy
  refine ⟨r, h1, h2.trans ?_⟩
  have := inj lim hlim t hw x y hx hy [] []
  simpa using this

example : MemcmpOK memcmp2 ∧ Plain (.seq (.opt (.str 1))) ∧ WF 1000 (.seq (.opt (.str 1))) ∧
    HasType 1000 (.seq (.opt (.str 1))) (.seq [.null, .ptr .unit (.raw [1])]) :=
  ⟨memcmp2_ok, trivial, by simp [WF], by decide, by
    intro v hv; simp at hv; rcases hv with rfl | rfl
    · trivial
    · exact ⟨1, rfl, by decide⟩⟩

/-- IEEE equality of doubles given by their 8 byte little-endian representations, for the two zeros: all bits other than
the sign bit are zero in both. -/
def bothZero (x y : Bytes) : Prop := (x = [0,0,0,0,0,0,0,0] ∨ x = [0,0,0,0,0,0,0,128]) ∧ (y = [0,0,0,0,0,0,0,0] ∨ y = [0,0,0,0,0,0,0,128])

/-- For floating point members deepEq is not `==`: +0.0 and -0.0 compare different. -/
theorem C08_float_fails (al : Alloc) (hok : al.ok = true) (mc : Bytes → Bytes → Int) (hm : MemcmpOK mc) :
    ∃ x y, bothZero x y ∧ deepEq al mc (.prim 8) (.raw x) (.raw y) = .ok false := by
  refine ⟨[0,0,0,0,0,0,0,0], [0,0,0,0,0,0,0,128], ⟨.inl rfl, .inr rfl⟩, ?_⟩
  obtain ⟨r, h1, h2⟩ := C08_deepEq al hok mc hm 0 (by decide) (.prim 8) (by simp [WF]) trivial (.raw [0,0,0,0,0,0,0,0])
    (.raw [0,0,0,0,0,0,0,128]) rfl rfl (by decide) (by decide)
  rw [h1]
  cases r with
  | false => rfl
  | true => simp at h2

/-! ### C17: smart pointers -/

/-- C17 for shared_ptr/unique_ptr, polymorphic case: whatever the destination pointer held, it is null afterwards exactly when
the original was, and otherwise denotes an object of the same dynamic type with the same contents. -/
theorem C17_smart_ptr (al : Alloc) (hok : al.ok = true) (lim : Nat) (hlim : lim < 2 ^ 63) (kt : Ty) (known : Val → Bool)
    (f : Val → Ty) (hw : WF lim (.poly kt known f)) (v d : Val) (hv : HasType lim (.poly kt known f) v)
    (hsz : (encode (.poly kt known f) v).length < 2 ^ 63) :
    ∃ b1 b2 r, packM al (.poly kt known f) v Buf.fresh = (.ok (), b1) ∧ decM lim (.poly kt known f) d b1 = (.ok r, b2) ∧
      (r = .null ↔ v = .null) ∧
      ∀ k x, v = .ptr k x → r = .ptr k (restore (f k) (dflt (f k)) x) ∧ (Plain (f k) → r = v) := by
  obtain ⟨b1, b2, h1, h2, h3⟩ := C03_roundtrip al hok lim hlim _ hw v d hv (by simp [Shape]) Buf.fresh ⟨Buf.inv_fresh, rfl⟩ []
    (by simp [Buf.fresh]; omega)
  obtain ⟨b1', e1, c1, p1, s1, i1⟩ := packs al hok lim _ v hw hv Buf.fresh Buf.inv_fresh (by simp [Buf.fresh]; omega)
  have := (reads_both lim hlim _ hw).1 d v (by simp [Shape]) hv b1' ⟨i1, by simp [Buf.fresh] at s1; omega, by
    simp [Buf.fresh] at p1; omega⟩ [] (by rw [rest_of_append ⟨Buf.inv_fresh, rfl⟩ c1 p1]; simp)
  refine ⟨b1', _, _, e1, this, ?_, ?_⟩
  · cases v <;> simp [restore, HasType] at hv ⊢
  · intro k x hx
    subst hx
    refine ⟨rfl, fun hp => ?_⟩
    simp only [restore]
    rw [restore_plain lim (f k) _ x hp (shape_dflt _) hv.2.2]

/-- C17 for shared_ptr/unique_ptr to a non-polymorphic type. -/
theorem C17_smart_ptr_simple (al : Alloc) (hok : al.ok = true) (lim : Nat) (hlim : lim < 2 ^ 63) (t : Ty)
    (hw : WF lim t) (v d : Val) (hv : HasType lim (.opt t) v) (hsz : (encode (.opt t) v).length < 2 ^ 63) :
    ∃ b1 b2 r, packM al (.opt t) v Buf.fresh = (.ok (), b1) ∧ decM lim (.opt t) d b1 = (.ok r, b2) ∧
      (r = .null ↔ v = .null) ∧ ∀ k x, v = .ptr k x → r = .ptr k (restore t (dflt t) x) ∧ (Plain t → r = v) := by
  obtain ⟨b1', e1, c1, p1, s1, i1⟩ := packs al hok lim (.opt t) v hw hv Buf.fresh Buf.inv_fresh (by simp [Buf.fresh]; omega)
  have := (reads_both lim hlim (.opt t) hw).1 d v (by simp [Shape]) hv b1' ⟨i1, by simp [Buf.fresh] at s1; omega, by
    simp [Buf.fresh] at p1; omega⟩ [] (by rw [rest_of_append ⟨Buf.inv_fresh, rfl⟩ c1 p1]; simp)
  refine ⟨b1', _, _, e1, this, ?_, ?_⟩
  · cases v <;> simp [restore, HasType] at hv ⊢
  · intro k x hx
    subst hx
    refine ⟨rfl, fun hp => ?_⟩
    cases k <;> simp only [HasType] at hv
    simp only [restore]
    rw [restore_plain lim t _ x hp (shape_dflt _) hv]

/-- A hierarchy with two types: 1 holds an int, 2 holds a string. -/
def exF (k : Val) : Ty := if k.bytes = [1] then .prim 4 else .str 1
def exPoly : Ty := .poly (.prim 1) (fun k => k.bytes = [1] ∨ k.bytes = [2]) exF

example : WF 1000 exPoly ∧ HasType 1000 exPoly (.ptr (.raw [2]) (.raw [104, 105])) := by
  refine ⟨⟨by simp [WF], trivial, fun k _ => ?_⟩, rfl, by decide, 2, rfl, by decide⟩
  unfold exF; split <;> simp [WF]

/-- What unpacking to a `poly` or an `object` pointer should give. -/
def polySpec (f : Nat → Ty) (base : Val) : PolyVal → PolyVal
  | none => none
  | some (k, v) => some (k, restore (f k) base v)

theorem reads_poly (lim : Nat) (hlim : lim < 2 ^ 63) (f : Nat → Ty) (table : Nat → Option Val) (k : Nat) (hk : k < 2 ^ 31)
    (hw : WF lim (f k)) (v : Val) (hv : HasType lim (f k) v) (d : PolyVal) (base : Val)
    (hbase : polyTarget table k d = some base)
    (hs : Shape (f k) base) :
    Reads (unpackPoly lim f table d) (1 :: (leB 4 k ++ encode (f k) v)) (some (k, restore (f k) base v)) := by
  have hk' : leV (leB 4 k) = k := by rw [leV_leB]; exact Nat.mod_eq_of_lt (by omega)
  refine Reads.bind (xs := [1]) reads_bool_true ?_
  simp only [if_true]
  refine Reads.bind (reads_popoff (leB_length 4 k)) ?_
  simp only [hk']
  rw [hbase]
  exact Reads.bind' ((reads_both lim hlim (f k) hw).1 base v hs hv) rfl

theorem appends_poly (al : Alloc) (hok : al.ok = true) (lim : Nat) (f : Nat → Ty) (k : Nat) (hw : WF lim (f k)) (v : Val)
    (hv : HasType lim (f k) v) : Appends (packPoly al f (some (k, v))) (1 :: (leB 4 k ++ encode (f k) v)) :=
  Appends.bind (xs := [1]) (appends_append al hok (by simp))
    (Appends.bind (appends_append al hok (by intro h; have := congrArg List.length h; simp [leB_length] at this))
      (packs al hok lim _ _ hw hv))

/-- Round trip of one value through a fresh buffer. -/
theorem roundtrip_of {α β} {m : M Unit} {r : M β} {xs : Bytes} {a : β} (_ : α) (h1 : Appends m xs) (h2 : Reads r xs a)
    (hs : xs.length < 2 ^ 63) : ∃ b1 b2, m Buf.fresh = (.ok (), b1) ∧ r b1 = (.ok a, b2) ∧ b2.rest = [] := by
  obtain ⟨b1, e1, c1, p1, s1, i1⟩ := h1 Buf.fresh Buf.inv_fresh (by simp [Buf.fresh]; omega)
  have hr : b1.rest = xs ++ [] := by rw [rest_of_append ⟨Buf.inv_fresh, rfl⟩ c1 p1]; simp
  simp only [Buf.fresh, Nat.zero_add] at p1 s1
  refine ⟨b1, _, e1, h2 b1 ⟨i1, by omega, by omega⟩ [] hr, ?_⟩
  exact rest_adv_of hr

/-- C17 for `poly`, the part that holds: a non-null pointer is restored with its dynamic type and contents whatever the
destination held (an object of the same type, of another type, or null), and null is restored over null.
Missing: null over a non-null destination, see `C17_poly_fails`. -/
theorem C17_poly_partial (al : Alloc) (hok : al.ok = true) (lim : Nat) (hlim : lim < 2 ^ 63) (f : Nat → Ty)
    (table : Nat → Option Val) (k : Nat) (hk : k < 2 ^ 31) (hw : WF lim (f k)) (v proto : Val) (hv : HasType lim (f k) v)
    (hreg : table k = some proto) (hps : Shape (f k) proto) (d : PolyVal) (hd : ∀ k' v', d = some (k', v') → Shape (f k') v')
    (hsz : (encode (f k) v).length + 5 < 2 ^ 63) :
    (∃ b1 b2 base, packPoly al f (some (k, v)) Buf.fresh = (.ok (), b1) ∧
      unpackPoly lim f table d b1 = (.ok (some (k, restore (f k) base v)), b2) ∧ b2.rest = [] ∧
      (Plain (f k) → restore (f k) base v = v)) ∧
    (∃ b1 b2, packPoly al f none Buf.fresh = (.ok (), b1) ∧ unpackPoly lim f table none b1 = (.ok none, b2) ∧ b2.rest = []) := by
  constructor
  · obtain ⟨base, hb, hs⟩ : ∃ base, polyTarget table k d = some base
        ∧ Shape (f k) base := by
      cases d with
      | none => exact ⟨proto, hreg, hps⟩
      | some p =>
        obtain ⟨k', v'⟩ := p
        by_cases e : k' = k
        · subst e; exact ⟨v', by simp [polyTarget], hd _ _ rfl⟩
        · exact ⟨proto, by simp [polyTarget, e, hreg], hps⟩
    obtain ⟨b1, b2, h1, h2, h3⟩ := roundtrip_of () (appends_poly al hok lim f k hw v hv)
      (reads_poly lim hlim f table k hk hw v hv d base hb hs) (by simp [leB_length]; omega)
    exact ⟨b1, b2, base, h1, h2, h3, fun hp => restore_plain lim _ _ v hp hs hv⟩
  · refine roundtrip_of () (appends_append al hok (xs := [0]) (by simp)) ?_ (by decide)
    exact Reads.bind' reads_bool_false rfl

/-- C17 fails for `poly`: a packed null leaves a non-null destination as it was. -/
theorem C17_poly_fails (al : Alloc) (hok : al.ok = true) (lim : Nat) (f : Nat → Ty) (table : Nat → Option Val) (k : Nat) (x : Val) :
    ∃ b1 b2, packPoly al f none Buf.fresh = (.ok (), b1) ∧
      unpackPoly lim f table (some (k, x)) b1 = (.ok (some (k, x)), b2) ∧ b2.rest = [] := by
  refine roundtrip_of () (appends_append al hok (xs := [0]) (by simp)) ?_ (by decide)
  exact Reads.bind' reads_bool_false rfl

/-- C17 for shared_ptr to classes derived from `object`, the part that holds (as for `poly`, for registered types derived
from the pointer's type). Missing: null over a non-null destination, see `C17_object_fails`. -/
theorem C17_object_partial (al : Alloc) (hok : al.ok = true) (lim : Nat) (hlim : lim < 2 ^ 63) (f : Nat → Ty)
    (table : Nat → Option Val) (cast : Nat → Bool) (k : Nat) (hk : k < 2 ^ 31 - 1) (hw : WF lim (f k)) (v proto : Val)
    (hv : HasType lim (f k) v) (hreg : table k = some proto) (hps : Shape (f k) proto) (hcast : cast k = true) (d : PolyVal)
    (hsz : (encode (f k) v).length + 4 < 2 ^ 63) :
    (∃ b1 b2, packObj al f (some (k, v)) Buf.fresh = (.ok (), b1) ∧
      unpackObj lim f table cast d b1 = (.ok (some (k, restore (f k) proto v)), b2) ∧ b2.rest = [] ∧
      (Plain (f k) → restore (f k) proto v = v)) ∧
    (∃ b1 b2, packObj al f none Buf.fresh = (.ok (), b1) ∧ unpackObj lim f table cast none b1 = (.ok none, b2) ∧ b2.rest = []) := by
  have ne4 : ∀ n, leB 4 n ≠ [] := by intro n h; have := congrArg List.length h; simp [leB_length] at this
  constructor
  · have hk' : leV (leB 4 (k + 1)) = k + 1 := by rw [leV_leB]; exact Nat.mod_eq_of_lt (by omega)
    have hr : Reads (unpackObj lim f table cast d) (leB 4 (k + 1) ++ encode (f k) v) (some (k, restore (f k) proto v)) := by
      refine Reads.bind (reads_popoff (leB_length 4 _)) ?_
      simp only [hk', Nat.add_sub_cancel, hreg, hcast, if_true, show k + 1 ≠ 0 by omega, if_false]
      exact Reads.bind' ((reads_both lim hlim (f k) hw).1 proto v hps hv) rfl
    obtain ⟨b1, b2, h1, h2, h3⟩ := roundtrip_of () (m := packObj al f (some (k, v))) (Appends.bind (appends_append al hok (ne4 _)) (packs al hok lim _ _ hw hv)) hr
      (by simp [leB_length]; omega)
    exact ⟨b1, b2, h1, h2, h3, fun hp => restore_plain lim _ _ v hp hps hv⟩
  · refine roundtrip_of () (appends_append al hok (xs := leB 4 0) (ne4 _)) ?_ (by decide)
    exact Reads.bind' (reads_popoff (leB_length 4 _)) (by rw [show leV (leB 4 0) = 0 from rfl]; rfl)

theorem C17_object_fails (al : Alloc) (hok : al.ok = true) (lim : Nat) (f : Nat → Ty) (table : Nat → Option Val)
    (cast : Nat → Bool) (k : Nat) (x : Val) :
    ∃ b1 b2, packObj al f none Buf.fresh = (.ok (), b1) ∧
      unpackObj lim f table cast (some (k, x)) b1 = (.ok (some (k, x)), b2) ∧ b2.rest = [] := by
  refine roundtrip_of () (appends_append al hok (xs := leB 4 0) (by decide)) ?_ (by decide)
  exact Reads.bind' (reads_popoff (leB_length 4 _)) (by rw [show leV (leB 4 0) = 0 from rfl]; rfl)

/-- C17 for weak_ptr, the part that holds: unpacked to a pointer whose target is alive, the target gets the value packed. -/
theorem C17_weak_partial (al : Alloc) (hok : al.ok = true) (lim : Nat) (hlim : lim < 2 ^ 63) (t : Ty) (hw : WF lim t)
    (hp : Plain t) (k x y : Val) (hv : HasType lim (.opt t) (.ptr k x)) (hsz : (encode (.opt t) (.ptr k x)).length < 2 ^ 63) :
    ∃ b1 b2, packM al (.opt t) (.ptr k x) Buf.fresh = (.ok (), b1) ∧ unpackWeak lim t (some y) b1 = (.ok (some x), b2) := by
  obtain ⟨b1, b2, r, h1, h2, -, h4⟩ := C17_smart_ptr_simple al hok lim hlim t hw (.ptr k x) .null hv hsz
  have := (h4 k x rfl).2 hp
  subst this
  exact ⟨b1, b2, h1, by rw [unpackWeak, bind_ok (m := decM lim (.opt t) .null) h2]; rfl⟩

/-- C17 fails for weak_ptr: a packed null (or expired) pointer unpacked to a live one dereferences null. -/
theorem C17_weak_fails (al : Alloc) (hok : al.ok = true) (lim : Nat) (t : Ty) (x : Val) :
    ∃ b1, packM al (.opt t) .null Buf.fresh = (.ok (), b1) ∧ (unpackWeak lim t (some x) b1).1 = .ub .nullDeref := by
  obtain ⟨b1, b2, h1, h2, -⟩ := roundtrip_of () (appends_append al hok (xs := [0]) (by simp))
    (Reads.bind' reads_bool_false rfl : Reads (decM lim (.opt t) .null) [0] .null) (by decide)
  exact ⟨b1, h1, by rw [unpackWeak, bind_ok (m := decM lim (.opt t) .null) h2]; rfl⟩

example : WF 1000 ((fun k => if k = 0 then Ty.prim 4 else .str 1) 1) ∧
    HasType 1000 ((fun k => if k = 0 then Ty.prim 4 else .str 1) 1) (.raw [104]) := ⟨by simp [WF], 1, rfl, by decide⟩

/-! ### C41: BinStream vectors -/

/-- C41. Reading a vector of `w`-byte elements from any data: the allocator is asked for memory only if the declared number of
elements is present in the unread data, and then exactly that many are delivered (unless the allocator refuses); otherwise
an exception is thrown. Nothing undefined happens whatever count is declared. -/
theorem C41_validated (lim w : Nat) (hw : 0 < w) (b : Buf) (hb : b.Inv) (hs : b.size < 2 ^ 63) (hp : b.pos ≤ b.size) :
    (∀ n, (binVec lim w b).requested = some n → ∃ sz, n = w * sz ∧ sz = leV (b.rest.take 8) ∧ 8 + w * sz ≤ b.rest.length) ∧
    (∀ xs, (binVec lim w b).res = .ok xs → (binVec lim w b).requested = some xs.length ∧
        b.rest = leB 8 (xs.length / w) ++ xs ++ (binVec lim w b).buf.rest) ∧
    (8 + w * leV (b.rest.take 8) ≤ b.rest.length → w * leV (b.rest.take 8) ≤ lim → ∃ xs, (binVec lim w b).res = .ok xs) ∧
    (∀ u, (binVec lim w b).res ≠ .ub u) := by
  have hrl := rest_length hb
  by_cases h8' : ¬ (b.pos + 8 ≤ b.size)
  · have e : binVec lim w b = ⟨.throw .eof, b, none⟩ := by
      simp [binVec, unpackU64, M.bind, popoff_eq, unpackraw_throw (b := b) 8 (by omega) (by omega)]
    rw [e]
    refine ⟨by simp, by simp, fun h => by omega, by simp⟩
  have h8 : b.pos + 8 ≤ b.size := by omega
  have hr : unpackU64 b = (.ok (leV (b.rest.take 8)), b.adv 8) := by
    simp [unpackU64, M.bind, popoff_eq, unpackraw_ok hb 8 h8, M.pure]
  have hlen : (b.rest.take 8).length = 8 := by rw [List.length_take]; omega
  have hlt : leV (b.rest.take 8) < W64 := by
    have := leV_lt (b.rest.take 8); rw [hlen] at this; exact this
  have henc : leB 8 (leV (b.rest.take 8)) = b.rest.take 8 := by
    have key : ∀ l : Bytes, leB l.length (leV l) = l := by
      intro l
      induction l with
      | nil => rfl
      | cons x xs ih =>
        have hx := x.toNat_lt
        simp only [leV, List.length_cons, leB]
        rw [show (x.toNat + 256 * leV xs) % 256 = x.toNat by omega, show (x.toNat + 256 * leV xs) / 256 = leV xs by omega, ih]
        simp
    have := key (b.rest.take 8); rwa [hlen] at this
  generalize hsz : leV (b.rest.take 8) = sz at *
  have hu : ((b.adv 8).size + (W64 - (b.adv 8).pos)) % W64 = b.size - b.pos - 8 := by
    simp only [adv_size, adv_pos]
    rw [show b.size + (W64 - (b.pos + 8)) = (b.size - b.pos - 8) + W64 by omega, Nat.add_mod_right, Nat.mod_eq_of_lt (by omega)]
  unfold binVec
  rw [hr]
  simp only [hu]
  by_cases hc : b.size - b.pos - 8 < w * sz % W64
  · simp only [hc, if_true]
    refine ⟨by simp, by simp, fun h => ?_, by simp⟩
    have := Nat.mod_le (w * sz) W64
    omega
  · simp only [hc, if_false]
    by_cases hm : 2 ^ 63 - 1 < w * sz
    · simp only [hm, if_true]
      refine ⟨by simp, by simp, fun h => by omega, by simp⟩
    · simp only [hm, if_false]
      have hmod : w * sz % W64 = w * sz := Nat.mod_eq_of_lt (by omega)
      rw [hmod] at hc
      by_cases hl : lim < w * sz
      · simp only [hl, if_true]
        refine ⟨?_, by simp, fun _ h => by omega, by simp⟩
        intro n hn
        simp only [Option.some.injEq] at hn
        exact ⟨sz, hn.symm, rfl, by omega⟩
      · simp only [hl, if_false]
        by_cases hz : sz = 0
        · subst hz
          simp only [if_true]
          refine ⟨?_, ?_, fun _ _ => ⟨[], rfl⟩, by simp⟩
          · intro n hn
            simp only [Option.some.injEq] at hn
            exact ⟨0, by omega, rfl, by omega⟩
          · intro xs hxs
            simp only [Res.ok.injEq] at hxs
            subst hxs
            refine ⟨rfl, ?_⟩
            simp only [List.length_nil, Nat.zero_div, henc, List.append_nil, rest_adv]
            rw [List.take_append_drop]
        · simp only [hz, if_false]
          have hg : Buf.Inv (b.adv 8) := inv_adv hb 8 h8
          rw [unpackraw_ok hg _ (by simp only [adv_pos, adv_size]; omega)]
          refine ⟨?_, ?_, fun _ _ => ⟨_, rfl⟩, by simp⟩
          · intro n hn
            simp only [Option.some.injEq] at hn
            exact ⟨sz, hn.symm, rfl, by omega⟩
          · intro xs hxs
            simp only [Res.ok.injEq] at hxs
            have hxl : xs.length = w * sz := by
              rw [← hxs, List.length_take, rest_adv, List.length_drop]; omega
            refine ⟨by rw [hxl], ?_⟩
            rw [hxl, Nat.mul_div_cancel_left _ hw, henc, ← hxs, rest_adv, rest_adv, rest_adv, List.append_assoc, List.take_append_drop,
              List.take_append_drop]

/-- What `operator<<` writes is read back by `operator>>`. -/
theorem C41_roundtrip (al : Alloc) (hok : al.ok = true) (lim w n : Nat) (hw : 0 < w) (xs : Bytes) (hx : xs.length = w * n)
    (hl : xs.length ≤ lim) (hsz : xs.length + 8 < 2 ^ 63) :
    ∃ b1, binVecPack al w xs Buf.fresh = (.ok (), b1) ∧ (binVec lim w b1).res = .ok xs := by
  have hn : n ≤ w * n := Nat.le_mul_of_pos_left _ hw
  have hap : Appends (binVecPack al w xs) (leB 8 n ++ xs) := by
    unfold binVecPack
    rw [hx, Nat.mul_div_cancel_left _ hw]
    refine Appends.bind (appends_u64 al hok n) ?_
    split
    · rename_i h; subst h; exact Appends.pure
    · exact appends_packraw al hok xs
  obtain ⟨b1, e1, c1, p1, s1, i1⟩ := hap Buf.fresh Buf.inv_fresh (by simp [Buf.fresh, leB_length]; omega)
  have hr : b1.rest = leB 8 n ++ xs := rest_of_append ⟨Buf.inv_fresh, rfl⟩ c1 p1
  refine ⟨b1, e1, ?_⟩
  have p0 : b1.pos = 0 := p1
  have s0 : b1.size = 8 + xs.length := by
    have : b1.size = 0 + (leB 8 n ++ xs).length := s1
    rw [this]; simp [leB_length]
  have ht : b1.rest.take 8 = leB 8 n := by
    rw [hr, List.take_left' (leB_length 8 n)]
  have hlev : leV (b1.rest.take 8) = n := by rw [ht]; exact leV_leB8 (by omega)
  have hv := C41_validated lim w hw b1 i1 (by omega) (by omega)
  obtain ⟨ys, hys⟩ := hv.2.2.1 (by rw [hlev, hr]; simp [leB_length]; omega) (by rw [hlev]; omega)
  obtain ⟨h1, h2⟩ := hv.2.1 ys hys
  obtain ⟨sz, h3, h4, -⟩ := hv.1 _ h1
  rw [hlev] at h4; subst h4
  rw [hys]
  rw [hr, h3, Nat.mul_div_cancel_left _ hw, List.append_assoc] at h2
  have h5 := List.append_cancel_left h2
  have h6 := (List.append_inj (s₁ := xs) (t₁ := []) (s₂ := ys) (by simpa using h5) (by omega)).1
  rw [h6]

/-- The wrap is real: for 8 byte elements a declared count of 2^61 passes the check, but is then refused by resize. -/
example : (binVec 1000 8 ⟨some [0, 0, 0, 0, 0, 0, 0, 32], 8, 0⟩).res = .throw .lengthError := by decide
example : (binVec 1000 2 ⟨some [1, 0, 0, 0, 0, 0, 0, 0, 5, 6, 7], 11, 0⟩).res = .ok [5, 6] := by decide

/-! ### C42: excluded members -/

/-- C42. Two objects have the same packing exactly when they agree on everything but excluded members. -/
theorem C42_same_packing (al : Alloc) (hok : al.ok = true) (lim : Nat) (hlim : lim < 2 ^ 63) (t : Ty) (hw : WF lim t)
    (x y : Val) (hx : HasType lim t x) (hy : HasType lim t y) (sx : (encode t x).length < W64) (sy : (encode t y).length < W64) :
    ∃ b1 b2, packM al t x Buf.fresh = (.ok (), b1) ∧ packM al t y Buf.fresh = (.ok (), b2) ∧
      (b1.content = b2.content ↔ Agree t x y) := by
  obtain ⟨b1, e1, c1, -, -, i1⟩ := packs al hok lim t x hw hx Buf.fresh Buf.inv_fresh (by simp [Buf.fresh]; omega)
  obtain ⟨b2, e2, c2, -, -, i2⟩ := packs al hok lim t y hw hy Buf.fresh Buf.inv_fresh (by simp [Buf.fresh]; omega)
  refine ⟨b1, b2, e1, e2, ?_⟩
  have := inj lim hlim t hw x y hx hy [] []
  simp only [List.append_nil, and_true] at this
  rw [c1, c2]
  simpa [Buf.fresh, Buf.content, Buf.mem] using this

/-- C42. An excluded member writes nothing, and unpacking never touches it or the stream. -/
theorem C42_no_bytes (al : Alloc) (lim : Nat) (e : Val) (v d : Val) (b : Buf) :
    packM al (.excl e) v b = (.ok (), b) ∧ decM lim (.excl e) d b = (.ok d, b) ∧ skipM lim (.excl e) b = (.ok (), b) := by
  refine ⟨by cases v <;> rfl, rfl, rfl⟩

/-- C42. A class with an excluded member anywhere in its member list: after unpacking, that member of the destination is
what it was, and every other member is as packed. -/
theorem C42_untouched (al : Alloc) (hok : al.ok = true) (lim : Nat) (hlim : lim < 2 ^ 63) (a c : Ty) (e : Val)
    (hwa : WF lim a) (hwc : WF lim c) (pa : Plain a) (pc : Plain c) (va ve vc da de dc : Val) (ha : HasType lim a va)
    (hc : HasType lim c vc) (hda : HasType lim a da) (hdc : HasType lim c dc)
    (hsz : (encode a va).length + (encode c vc).length < 2 ^ 63) :
    ∃ b1 b2, packM al (.pair a (.pair (.excl e) c)) (.pair va (.pair ve vc)) Buf.fresh = (.ok (), b1) ∧
      b1.size = (encode a va).length + (encode c vc).length ∧
      decM lim (.pair a (.pair (.excl e) c)) (.pair da (.pair de dc)) b1 = (.ok (.pair va (.pair de vc)), b2) := by
  have hv : HasType lim (.pair a (.pair (.excl e) c)) (.pair va (.pair ve vc)) := ⟨ha, by simp [HasType], hc⟩
  have hd : Shape (.pair a (.pair (.excl e) c)) (.pair da (.pair de dc)) :=
    ⟨shape_of_hasType lim _ _ hda, by simp [Shape], shape_of_hasType lim _ _ hdc⟩
  have hw : WF lim (.pair a (.pair (.excl e) c)) := ⟨hwa, trivial, hwc⟩
  have hl : (encode (.pair a (.pair (.excl e) c)) (.pair va (.pair ve vc))).length = (encode a va).length + (encode c vc).length := by
    simp [encode, Val.fst, Val.snd]
  obtain ⟨b1, e1, c1, p1, s1, i1⟩ := packs al hok lim _ _ hw hv Buf.fresh Buf.inv_fresh (by rw [hl]; simp [Buf.fresh]; omega)
  have s0 : b1.size = (encode a va).length + (encode c vc).length := by
    rw [s1, hl]; simp [Buf.fresh]
  have p0 : b1.pos = 0 := p1
  have hr := (reads_both lim hlim _ hw).1 _ _ hd hv b1 ⟨i1, by omega, by omega⟩ []
    (by rw [rest_of_append ⟨Buf.inv_fresh, rfl⟩ c1 p1]; simp)
  refine ⟨b1, _, e1, s0, hr.trans (Prod.ext ?_ rfl)⟩
  simp only [restore, Val.fst, Val.snd]
  rw [restore_plain lim a _ _ pa (shape_of_hasType lim _ _ hda) ha, restore_plain lim c _ _ pc (shape_of_hasType lim _ _ hdc) hc]

example : Agree exTy exVal (restore exTy (dflt exTy) exVal) := by
  simp [Agree, exTy, exVal, restore, Val.fst, Val.snd, Val.elems, Rel2, dflt]

/-! ### C47: iterators -/

/-- C47. A container and an iterator into it, packed in that order and unpacked in that order: the restored iterator denotes
the same position, so the same element; end() is restored as end(). -/
theorem C47_iterator (al : Alloc) (hok : al.ok = true) (lim : Nat) (hlim : lim < 2 ^ 63) (t : Ty) (hw : WF lim t) (hp : Plain t)
    (l : List Val) (hl : HasType lim (.seq t) (.seq l)) (d : Val) (i : Nat) (hi : i ≤ l.length)
    (hsz : (encode (.seq t) (.seq l)).length + 8 < 2 ^ 63) :
    ∃ b1 b2 l', M.bind (packM al (.seq t) (.seq l)) (fun _ => packIter al (some i)) Buf.fresh = (.ok (), b1) ∧
      M.bind (decM lim (.seq t) d) (fun v => M.bind (unpackIter (some v.elems)) fun j => M.pure (v.elems, j)) b1
        = (.ok (l', some i), b2) ∧ l'[i]? = l[i]? ∧ l'.length = l.length ∧ b2.rest = [] := by
  have hll : l.length < W64 := hl.1
  have h1 : Reads (decM lim (.seq t) d) (encode (.seq t) (.seq l)) (.seq l) := by
    have := (reads_both lim hlim (.seq t) hw).1 d (.seq l) (by simp [Shape]) hl
    rwa [restore_plain lim (.seq t) d (.seq l) hp (by simp [Shape]) hl] at this
  have h2 : Reads (unpackIter (some l)) (leB 8 i) (some i) :=
    Reads.bind' (reads_u64 (by omega)) (by simp [hi])
  obtain ⟨b1, b2, e1, e2, e3⟩ := roundtrip_of () (Appends.bind (f := fun _ => packIter al (some i)) (packs al hok lim (.seq t) (.seq l) hw hl) (appends_u64 al hok i))
    (Reads.bind (f := fun v => M.bind (unpackIter (some v.elems)) fun j => M.pure (v.elems, j)) h1
      (Reads.bind' (f := fun j => M.pure (l, j)) h2 rfl)) (by simp only [List.length_append, leB_length]; omega)
  exact ⟨b1, b2, l, e1, e2, rfl, rfl, e3⟩

/-- An iterator without a container: unpacking consumes its eight bytes and does nothing else. -/
theorem C47_no_container (al : Alloc) (hok : al.ok = true) :
    ∃ b1 b2, packIter al none Buf.fresh = (.ok (), b1) ∧ unpackIter none b1 = (.ok none, b2) ∧ b2.rest = [] :=
  roundtrip_of () (appends_u64 al hok 0) (Reads.bind' (reads_u64 (by decide)) rfl) (by simp [leB_length])

/-- The order matters: an iterator unpacked while its container is still empty is advanced out of range. -/
theorem C47_order_fails (al : Alloc) (hok : al.ok = true) (i : Nat) (hi : 0 < i) (hi' : i < W64) :
    ∃ b1, packIter al (some i) Buf.fresh = (.ok (), b1) ∧ (unpackIter (some []) b1).1 = .ub .oob := by
  obtain ⟨b1, b2, h1, h2, -⟩ := roundtrip_of () (appends_u64 al hok i) (reads_u64 hi') (by simp [leB_length])
  refine ⟨b1, h1, ?_⟩
  rw [unpackIter, bind_ok h2]
  simp [show i ≠ 0 by omega, M.ub]

example : HasType 1000 (.seq (.prim 1)) (.seq [.raw [1], .raw [2]]) ∧ Plain (.seq (.prim 1)) :=
  ⟨⟨by decide, by simp [HasType]⟩, trivial⟩

/-! ### C48: std::array -/

/-- C48. Unpacking std::array<T,N> from a packed sequence of `m` elements (of any container kind): the first min(m,N) elements
are assigned, the others keep their values, and the result still has N elements. -/
theorem C48_array (al : Alloc) (hok : al.ok = true) (lim : Nat) (hlim : lim < 2 ^ 63) (t : Ty) (hw : WF lim t) (hp : Plain t)
    (l ds : List Val) (hl : HasType lim (.seq t) (.seq l)) (n : Nat) (hd : HasType lim (.arr n t) (.seq ds))
    (hsz : (encode (.seq t) (.seq l)).length < 2 ^ 63) :
    ∃ b1 b2, packM al (.seq t) (.seq l) Buf.fresh = (.ok (), b1) ∧
      decM lim (.arr n t) (.seq ds) b1 = (.ok (.seq (l.take n ++ ds.drop l.length)), b2) ∧
      (l.take n ++ ds.drop l.length).length = n ∧
      b2.rest = (l.drop n).flatMap (encode t) := by
  obtain ⟨hdl, hn, hdt⟩ := hd
  obtain ⟨hll, hlt⟩ := hl
  obtain ⟨b1, e1, c1, p1, s1, i1⟩ := packs al hok lim (.seq t) (.seq l) hw ⟨hll, hlt⟩ Buf.fresh Buf.inv_fresh
    (by simp only [Buf.fresh]; omega)
  have hr : b1.rest = leB 8 l.length ++ l.flatMap (encode t) := rest_of_append ⟨Buf.inv_fresh, rfl⟩ c1 p1
  have hmin : (ds.take (min l.length n)).length = (l.take (min l.length n)).length := by
    simp only [List.length_take]; omega
  have hz : List.zipWith (restore t) (ds.take (min l.length n)) (l.take (min l.length n)) = l.take (min l.length n) := by
    apply zipWith_left _ _ hmin
    intro a c ha hc
    exact restore_plain lim t a c hp (shape_of_hasType lim t a (hdt a (List.mem_of_mem_take ha))) (hlt c (List.mem_of_mem_take hc))
  have hreads : Reads (decM lim (.arr n t) (.seq ds)) (leB 8 l.length ++ (l.take (min l.length n)).flatMap (encode t))
      (.seq (l.take (min l.length n) ++ ds.drop (min l.length n))) := by
    refine Reads.bind (reads_u64 hll) ?_
    refine Reads.bind' (reads_decIn (P := Shape t) (g := restore t) _ _ hmin ?_ ?_) ?_
    · intro d hd; exact shape_of_hasType lim t d (hdt d (List.mem_of_mem_take hd))
    · intro d v hd hv; exact (reads_both lim hlim t hw).1 d v hd (hlt v (List.mem_of_mem_take hv))
    · simp only [Val.elems]; rw [hz]
  have hsplit : b1.rest = (leB 8 l.length ++ (l.take (min l.length n)).flatMap (encode t)) ++ (l.drop (min l.length n)).flatMap (encode t) := by
    rw [hr, List.append_assoc, ← List.flatMap_append, List.take_append_drop]
  have s0 : b1.size < 2 ^ 63 := by rw [s1]; simp only [Buf.fresh]; omega
  have p0 : b1.pos = 0 := p1
  have hfin := hreads b1 ⟨i1, s0, by omega⟩ _ hsplit
  have ht : l.take (min l.length n) = l.take n := by
    by_cases h : l.length ≤ n
    · rw [Nat.min_eq_left h, List.take_length, List.take_of_length_le h]
    · rw [Nat.min_eq_right (by omega)]
  have hdr : ds.drop (min l.length n) = ds.drop l.length := by
    by_cases h : l.length ≤ n
    · rw [Nat.min_eq_left h]
    · rw [Nat.min_eq_right (by omega), List.drop_of_length_le (by omega), List.drop_of_length_le (by omega)]
  have hlr : l.drop (min l.length n) = l.drop n := by
    by_cases h : l.length ≤ n
    · rw [Nat.min_eq_left h, List.drop_length, List.drop_of_length_le h]
    · rw [Nat.min_eq_right (by omega)]
  rw [ht, hdr] at hfin
  refine ⟨b1, _, e1, hfin, ?_, ?_⟩
  · simp only [List.length_append, List.length_take, List.length_drop]; omega
  · rw [rest_adv_of (by rw [ht] at hsplit; exact hsplit), hlr]

/-- In particular an array of N elements restores all of them and consumes everything. -/
theorem C48_same_size (al : Alloc) (hok : al.ok = true) (lim : Nat) (hlim : lim < 2 ^ 63) (n : Nat) (t : Ty) (hw : WF lim t)
    (hp : Plain t) (v d : Val) (hv : HasType lim (.arr n t) v) (hd : HasType lim (.arr n t) d)
    (hsz : (encode (.arr n t) v).length < 2 ^ 63) :
    ∃ b1 b2, packM al (.arr n t) v Buf.fresh = (.ok (), b1) ∧ decM lim (.arr n t) d b1 = (.ok v, b2) ∧ b2.rest = [] := by
  have h := (reads_both lim hlim (.arr n t) hw).1 d v (shape_of_hasType lim (.arr n t) d hd) hv
  rw [restore_plain lim (.arr n t) d v hp (shape_of_hasType lim (.arr n t) d hd) hv] at h
  exact roundtrip_of () (packs al hok lim (.arr n t) v hw hv) h hsz

example : HasType 1000 (.arr 2 (.prim 1)) (.seq [.raw [1], .raw [2]]) ∧
    HasType 1000 (.seq (.prim 1)) (.seq [.raw [1], .raw [2], .raw [3]]) :=
  ⟨⟨rfl, by decide, by simp [HasType]⟩, by decide, by simp [HasType]⟩

/-! ### C51: unordered containers -/

/-- C51, round trip: for any conforming insert, packing the elements in iteration order and unpacking restores the same elements
(as a multiset), and consumes exactly what was written. -/
theorem C51_roundtrip_partial (al : Alloc) (hok : al.ok = true) (lim : Nat) (hlim : lim < 2 ^ 63) (t : Ty) (hw : WF lim t) (hp : Plain t)
    (eqv : Val → Val → Bool) (symm : ∀ x y, eqv x y = eqv y x) (multi : Bool) (put : Val → List Val → List Val)
    (hput : UInsert eqv multi put) (l : List Val) (hl : HasType lim (.seq t) (.seq l))
    (hdist : multi = true ∨ l.Pairwise fun x y => eqv x y = false) (hsz : (encode (.seq t) (.seq l)).length < 2 ^ 63) :
    ∃ b1 b2 l', packM al (.seq t) (.seq l) Buf.fresh = (.ok (), b1) ∧ unpackUnordered lim put t b1 = (.ok (.seq l'), b2) ∧
      l'.Perm l ∧ b2.rest = [] := by
  obtain ⟨hll, hlt⟩ := hl
  have hid : l.map (restore t (dflt t)) = l := by
    conv => rhs; rw [← List.map_id l]
    apply List.map_congr_left
    intro x hx; exact restore_plain lim t _ x hp (shape_dflt t) (hlt x hx)
  have hr : Reads (unpackUnordered lim put t) (leB 8 l.length ++ l.flatMap (encode t))
      (.seq (l.foldl (fun a v => put v a) [])) := by
    refine Reads.bind (reads_u64 hll) ?_
    have := reads_decAssoc (put := put) l _ [] rfl (fun v hv => (reads_both lim hlim t hw).1 _ v (shape_dflt t) (hlt v hv))
    rw [hid] at this
    exact Reads.bind' this rfl
  obtain ⟨b1, b2, h1, h2, h3⟩ := roundtrip_of () (packs al hok lim (.seq t) (.seq l) hw ⟨hll, hlt⟩) hr hsz
  refine ⟨b1, b2, _, h1, h2, ?_, h3⟩
  have := fold_put hput symm l [] (by simpa using hdist)
  simpa using this

/-- C51 fails for deepEq: the same elements in different iteration orders compare different. -/
theorem C51_deepEq_fails (al : Alloc) (hok : al.ok = true) (mc : Bytes → Bytes → Int) (hm : MemcmpOK mc) :
    ∃ l m : List Val, l.Perm m ∧ deepEq al mc (.seq (.prim 4)) (.seq l) (.seq m) = .ok false := by
  refine ⟨[.raw [1, 0, 0, 0], .raw [2, 0, 0, 0]], [.raw [2, 0, 0, 0], .raw [1, 0, 0, 0]], List.Perm.swap _ _ _, ?_⟩
  obtain ⟨r, h1, h2⟩ := C08_deepEq al hok mc hm 0 (by decide) (.seq (.prim 4)) (by simp [WF]) trivial
    (.seq [.raw [1, 0, 0, 0], .raw [2, 0, 0, 0]]) (.seq [.raw [2, 0, 0, 0], .raw [1, 0, 0, 0]])
    ⟨by decide, by simp [HasType]⟩ ⟨by decide, by simp [HasType]⟩ (by decide) (by decide)
  rw [h1]
  cases r with
  | false => rfl
  | true => simp at h2

/-- Inserting at the front is a conforming insert. -/
example : UInsert exLt true (fun e l => e :: l) := ⟨by simp, fun e l _ => List.Perm.refl _⟩
example : UInsert (fun x y => decide (x.bytes = y.bytes)) false
    (fun e l => if l.any (fun x => decide (e.bytes = x.bytes)) then l else e :: l) := by
  refine ⟨fun _ e l h => ?_, fun e l h => ?_⟩
  · rw [if_pos]; simpa using h
  · rw [if_neg]
    simpa using h

end Verif
