import Verif.Buffer
/-
Histories of operations on one in-memory buffer, comparison operators, and ownership of the heap blocks of
several buffers under swap and move.
-/
namespace Verif

/-- The calls a user can make on a buffer. `write` is `packraw`, `read` is `unpackraw`,
`seekiBack k` is `seeki(-k)`. -/
inductive Op
  | write (xs : Bytes)
  | read (n : Nat)
  | reseti | reseto | clear
  | seekiBack (k : Nat)
  | seeko (offs : Int)
deriving DecidableEq, Repr

/-- What the caller observes from a call: nothing, bytes, or a `pack_error`. -/
inductive Obs
  | done
  | data (xs : Bytes)
  | threw
deriving DecidableEq, Repr

/-- One call against the model of pack_t (pack_base.h:238-281). An exception is caught by the caller,
who may carry on with the buffer; undefined behaviour is reported as `none`. -/
def Buf.step (al : Alloc) (b : Buf) : Op → Option (Obs × Buf)
  | .write xs => match Buf.packraw al xs b with
    | (.ok _, b') => some (.done, b')
    | (.throw _, b') => some (.threw, b')
    | (.ub _, _) => none
  | .read n => match Buf.unpackraw n b with
    | (.ok xs, b') => some (.data xs, b')
    | (.throw _, b') => some (.threw, b')
    | (.ub _, _) => none
  | .reseti => some (.done, b.reseti)
  | .reseto => some (.done, b.reseto)
  | .clear => some (.done, b.clear)
  | .seekiBack k => some (.done, b.seeki k)
  | .seeko i => some (.done, b.seeko i)

/-- A history of calls. -/
def Buf.run (al : Alloc) : List Op → Buf → Option (List Obs × Buf)
  | [], b => some ([], b)
  | op :: ops, b => match b.step al op with
    | none => none
    | some (o, b') => match Buf.run al ops b' with
      | none => none
      | some (os, b'') => some (o :: os, b'')

/-! ### Specification: a byte string and a cursor -/

/-- Abstract buffer: everything written, and the read cursor. -/
structure SBuf where
  content : Bytes
  pos : Nat
deriving DecidableEq, Repr

/-- Abstract effect of a call. -/
def SBuf.step (s : SBuf) : Op → Obs × SBuf
  | .write xs => (.done, { s with content := s.content ++ xs })
  | .read n => if s.pos + n ≤ s.content.length
      then (.data ((s.content.drop s.pos).take n), { s with pos := s.pos + n })
      else (.threw, s)
  | .reseti => (.done, { s with content := [] })
  | .reseto => (.done, { s with pos := 0 })
  | .clear => (.done, ⟨[], 0⟩)
  | .seekiBack k => (.done, { s with content := s.content.take (s.content.length - k) })
  | .seeko i => (.done, { s with pos := (s.pos + i).toNat })

def SBuf.run : List Op → SBuf → List Obs × SBuf
  | [], s => ([], s)
  | op :: ops, s =>
    let r := s.step op
    let q := SBuf.run ops r.2
    (r.1 :: q.1, q.2)

/-- Calls whose numeric arguments do not overflow a 64-bit size, and seeks that stay in range. -/
def SBuf.Legal (s : SBuf) : Op → Prop
  | .write xs => s.content.length + xs.length < W64
  | .read n => s.pos + n < W64
  | .seekiBack k => k ≤ s.content.length
  | .seeko i => 0 ≤ (s.pos : Int) + i ∧ (s.pos : Int) + i < W64
  | _ => True

def SBuf.LegalHist : SBuf → List Op → Prop
  | _, [] => True
  | s, op :: ops => s.Legal op ∧ (s.step op).2.LegalHist ops

/-- Abstraction relation. -/
structure Buf.Abs (b : Buf) (s : SBuf) : Prop where
  inv : b.Inv
  content : b.content = s.content
  pos : b.pos = s.pos

theorem Buf.Abs.size {b : Buf} {s : SBuf} (h : b.Abs s) : b.size = s.content.length := by
  rw [← h.content, Buf.content_length h.inv]

theorem Buf.abs_fresh : Buf.fresh.Abs ⟨[], 0⟩ := ⟨Buf.inv_fresh, rfl, rfl⟩

theorem Buf.step_abs (al : Alloc) (hok : al.ok = true) {b : Buf} {s : SBuf} (h : b.Abs s) (op : Op)
    (hl : s.Legal op) : ∃ b', b.step al op = some ((s.step op).1, b') ∧ b'.Abs (s.step op).2 := by
  have hsz := h.size
  have hinv := h.inv
  cases op with
  | write xs =>
    simp only [SBuf.Legal] at hl
    obtain ⟨b', h1, h2, h3, h4, h5⟩ := Buf.packraw_ok al hok b xs hinv (by omega)
    exact ⟨b', by simp [Buf.step, h1, SBuf.step], ⟨h5, by simp [SBuf.step, h2, h.content], by simp [SBuf.step, h3, h.pos]⟩⟩
  | read n =>
    simp only [SBuf.Legal] at hl
    by_cases hn : s.pos + n ≤ s.content.length
    · have hn' : b.pos + n ≤ b.size := by rw [h.pos]; omega
      refine ⟨b.adv n, ?_, ?_⟩
      · simp [Buf.step, Buf.unpackraw_ok hinv n hn', SBuf.step, hn, Buf.rest, h.content, h.pos]
      · refine ⟨Buf.inv_adv hinv n hn', ?_, ?_⟩
        · simp [SBuf.step, hn]; exact h.content
        · simp [SBuf.step, hn, h.pos]
    · refine ⟨b, ?_, ?_⟩
      · have h1 := Buf.unpackraw_throw (b := b) n (by rw [h.pos]; omega) (by rw [h.pos]; omega)
        simp [Buf.step, h1, SBuf.step, hn]
      · simp [SBuf.step, hn]; exact h
  | reseti =>
    refine ⟨_, rfl, ⟨⟨by simp [Buf.reseti], by simp [Buf.reseti], hinv.plt⟩, ?_, h.pos⟩⟩
    simp [Buf.reseti, Buf.content, SBuf.step]
  | reseto =>
    exact ⟨_, rfl, ⟨⟨hinv.cover, hinv.lt, by simp [Buf.reseto]⟩, h.content, rfl⟩⟩
  | clear => exact ⟨_, rfl, Buf.abs_fresh⟩
  | seekiBack k =>
    simp only [SBuf.Legal] at hl
    have h1 : (b.size + (W64 - k % W64)) % W64 = s.content.length - k := by
      have := hinv.lt; omega
    refine ⟨_, rfl, ⟨⟨?_, ?_, hinv.plt⟩, ?_, h.pos⟩⟩
    · have := hinv.cover; simp only [Buf.seeki, h1, Buf.mem] at *; omega
    · have := hinv.lt; simp only [Buf.seeki, h1]; omega
    · simp only [Buf.seeki, h1, Buf.content, SBuf.step, ← h.content, List.take_take]
      congr 1
      have := hinv.cover
      simp only [List.length_take]
      omega
  | seeko i =>
    simp only [SBuf.Legal] at hl
    have h1 : ((b.pos : Int) + i) % (W64 : Int) = (b.pos : Int) + i := by
      rw [h.pos]; exact Int.emod_eq_of_lt hl.1 hl.2
    refine ⟨_, rfl, ⟨⟨hinv.cover, hinv.lt, ?_⟩, h.content, ?_⟩⟩
    · simp only [Buf.seeko, h1]; rw [h.pos]; omega
    · simp only [Buf.seeko, h1, SBuf.step]; rw [h.pos]

theorem Buf.run_abs (al : Alloc) (hok : al.ok = true) (ops : List Op) : ∀ {b : Buf} {s : SBuf}, b.Abs s →
    s.LegalHist ops → ∃ b', Buf.run al ops b = some ((SBuf.run ops s).1, b') ∧ b'.Abs (SBuf.run ops s).2 := by
  induction ops with
  | nil => intro b s h _; exact ⟨b, rfl, h⟩
  | cons op ops ih =>
    intro b s h hl
    obtain ⟨b1, h1, h2⟩ := Buf.step_abs al hok h op hl.1
    obtain ⟨b2, h3, h4⟩ := ih h2 hl.2
    exact ⟨b2, by simp [Buf.run, h1, h3, SBuf.run], h4⟩

/-! ### Comparison -/

/-- Lexicographic order of byte strings (specification). -/
def lexLt : Bytes → Bytes → Prop
  | _, [] => False
  | [], _ :: _ => True
  | x :: xs, y :: ys => x < y ∨ (x = y ∧ lexLt xs ys)

/-- What the C standard promises of memcmp on equally long arrays: only the sign of the result. -/
structure MemcmpOK (m : Bytes → Bytes → Int) : Prop where
  eq : ∀ x y, x.length = y.length → (m x y = 0 ↔ x = y)
  neg : ∀ x y, x.length = y.length → (m x y < 0 ↔ lexLt x y)

/-- `pack_t::cmp`, pack_base.h:293-298. -/
def Buf.cmp (m : Bytes → Bytes → Int) (a b : Buf) : Int :=
  if a.size = b.size then m a.content b.content
  else if a.size < b.size then -1 else 1

/-- `operator<`, pack_base.h:300. -/
def Buf.lt (m : Bytes → Bytes → Int) (a b : Buf) : Prop := Buf.cmp m a b = -1
/-- `operator>`, pack_base.h:301. -/
def Buf.gt (m : Bytes → Bytes → Int) (a b : Buf) : Prop := Buf.cmp m a b = 1
/-- `operator==`, pack_base.h:302. -/
def Buf.eq (m : Bytes → Bytes → Int) (a b : Buf) : Prop := Buf.cmp m a b = 0
/-- `operator!=`, pack_base.h:303. -/
def Buf.ne (m : Bytes → Bytes → Int) (a b : Buf) : Prop := Buf.cmp m a b ≠ 0

theorem lexLt_irrefl : ∀ x, ¬ lexLt x x
  | [] => by simp [lexLt]
  | x :: xs => by simp [lexLt, lexLt_irrefl xs]

theorem lexLt_trans : ∀ x y z, lexLt x y → lexLt y z → lexLt x z
  | _, _, [] => by intro _ h; cases ‹Bytes› <;> simp [lexLt] at h
  | _, [], _ :: _ => by intro h; cases ‹Bytes› <;> simp [lexLt] at h
  | [], _ :: _, _ :: _ => by intros; simp [lexLt]
  | x :: xs, y :: ys, z :: zs => by
    simp only [lexLt]
    rintro (h | ⟨h, h'⟩) (k | ⟨k, k'⟩)
    · exact .inl (UInt8.lt_trans h k)
    · subst k; exact .inl h
    · subst h; exact .inl k
    · subst h; exact .inr ⟨k, lexLt_trans xs ys zs h' k'⟩

theorem lexLt_total : ∀ x y, x.length = y.length → lexLt x y ∨ x = y ∨ lexLt y x
  | [], [] => by simp
  | [], _ :: _ => by simp
  | _ :: _, [] => by simp
  | x :: xs, y :: ys => by
    intro h
    simp only [List.length_cons, Nat.add_right_cancel_iff] at h
    by_cases hlt : x < y
    · exact .inl (.inl hlt)
    · by_cases hgt : y < x
      · exact .inr (.inr (.inl hgt))
      · have hxy : x = y := by
          apply UInt8.le_antisymm
          · exact UInt8.not_lt.mp hgt
          · exact UInt8.not_lt.mp hlt
        subst hxy
        rcases lexLt_total xs ys h with h1 | h1 | h1
        · exact .inl (.inr ⟨rfl, h1⟩)
        · exact .inr (.inl (by rw [h1]))
        · exact .inr (.inr (.inr ⟨rfl, h1⟩))

/-! ### Ownership of heap blocks: several buffers -/

/-- Several buffers and the heap. `live` are the allocated blocks, `bufs[i]` is `none` for a destroyed
buffer and otherwise its `m_data` (block number or null). Block contents are dealt with above. -/
structure Heap where
  live : List Nat
  next : Nat
  bufs : List (Option (Option Nat))
deriving DecidableEq, Repr

inductive HOp
  | construct                 -- pack_t(): m_data(NULL)                  pack_base.h:216
  | grow (i : Nat)            -- realloc of a non-zero size (packraw, append, resize)
  | release (i : Nat)         -- realloc(0) (clear, packraw of nothing on an empty buffer)
  | swap (i j : Nat)          -- swap / swap_base                        pack_base.h:148-156,286-290
  | moveAssign (i j : Nat)    -- bufs[i] = std::move(bufs[j])            pack_base.h:234
  | moveCtor (i : Nat)        -- new buffer constructed from bufs[i]     pack_base.h:233
  | destroy (i : Nat)         -- ~pack_t: realloc(0)                     pack_base.h:230
deriving DecidableEq, Repr

/-- `free`: freeing null is a no-op; freeing a block that is not live is undefined (`none`). -/
def Heap.free (live : List Nat) : Option Nat → Option (List Nat)
  | none => some live
  | some p => if p ∈ live then some (live.erase p) else none

/-- Effect of a call on the ownership of blocks; `none` is undefined behaviour (double free, use of a
destroyed buffer). Calls on destroyed buffers are the caller's error and reported as undefined too. -/
def Heap.step (h : Heap) : HOp → Option Heap
  | .construct => some { h with bufs := h.bufs ++ [some none] }
  | .grow i => match h.bufs[i]? with
    | some (some d) => (Heap.free h.live d).map fun l =>
        { live := h.next :: l, next := h.next + 1, bufs := h.bufs.set i (some (some h.next)) }
    | _ => none
  | .release i => match h.bufs[i]? with
    | some (some d) => (Heap.free h.live d).map fun l => { h with live := l, bufs := h.bufs.set i (some none) }
    | _ => none
  | .swap i j | .moveAssign i j => match h.bufs[i]?, h.bufs[j]? with
    | some (some d), some (some e) => some { h with bufs := (h.bufs.set i (some e)).set j (some d) }
    | _, _ => none
  | .moveCtor i => match h.bufs[i]? with
    -- f(nullptr), m_data(nullptr), then swap_base(x)
    | some (some d) => some { h with bufs := (h.bufs.set i (some none)) ++ [some d] }
    | _ => none
  | .destroy i => match h.bufs[i]? with
    | some (some d) => (Heap.free h.live d).map fun l => { h with live := l, bufs := h.bufs.set i none }
    | _ => none

def Heap.run : List HOp → Heap → Option Heap
  | [], h => some h
  | op :: ops, h => (h.step op).bind (Heap.run ops)

def Heap.init : Heap := ⟨[], 0, []⟩

/-- The buffers the call names exist and have not been destroyed (specification of a legal call). -/
def Heap.Names (alive : List Bool) : HOp → Prop
  | .construct => True
  | .grow i | .release i | .moveCtor i | .destroy i => alive[i]? = some true
  | .swap i j | .moveAssign i j => alive[i]? = some true ∧ alive[j]? = some true

/-- How a call changes which buffers exist. -/
def Heap.alive (alive : List Bool) : HOp → List Bool
  | .construct | .moveCtor _ => alive ++ [true]
  | .destroy i => alive.set i false
  | _ => alive

def Heap.NamesHist : List Bool → List HOp → Prop
  | _, [] => True
  | a, op :: ops => Heap.Names a op ∧ Heap.NamesHist (Heap.alive a op) ops

/-- Every live block is owned by exactly one existing buffer, and every buffer's block is live. -/
structure Heap.Inv (h : Heap) : Prop where
  own : ∀ (i : Nat) p, h.bufs[i]? = some (some (some p)) → p ∈ h.live
  inj : ∀ (i j : Nat) p, h.bufs[i]? = some (some (some p)) → h.bufs[j]? = some (some (some p)) → i = j
  cov : ∀ p, p ∈ h.live → ∃ i : Nat, h.bufs[i]? = some (some (some p))
  nodup : h.live.Nodup
  lt : ∀ p, p ∈ h.live → p < h.next

theorem Heap.inv_init : Heap.Inv Heap.init := by
  constructor <;> simp [Heap.init]

/-- The list of existing buffers agrees with the model's. -/
def Heap.AliveIs (h : Heap) (a : List Bool) : Prop :=
  h.bufs.map Option.isSome = a

theorem Heap.aliveIs_get {h : Heap} {a : List Bool} (ha : h.AliveIs a) {i : Nat} (hi : a[i]? = some true) :
    ∃ d, h.bufs[i]? = some (some d) := by
  rw [← ha, List.getElem?_map] at hi
  cases hb : h.bufs[i]? with
  | none => simp [hb] at hi
  | some o => cases o with
    | none => simp [hb] at hi
    | some d => exact ⟨d, rfl⟩

theorem Heap.free_ok {h : Heap} (hi : h.Inv) {i : Nat} {d : Option Nat} (hb : h.bufs[i]? = some (some d)) :
    ∃ l, Heap.free h.live d = some l ∧ l.Nodup ∧ ∀ p, p ∈ l ↔ (p ∈ h.live ∧ d ≠ some p) := by
  cases d with
  | none => exact ⟨h.live, rfl, hi.nodup, by simp⟩
  | some q =>
    have := hi.own i q hb
    refine ⟨h.live.erase q, by simp [Heap.free, this], hi.nodup.erase _, ?_⟩
    intro p
    rw [hi.nodup.mem_erase_iff]
    constructor
    · rintro ⟨h1, h2⟩; exact ⟨h2, by intro h3; cases h3; exact h1 rfl⟩
    · rintro ⟨h1, h2⟩; exact ⟨by intro h3; subst h3; exact h2 rfl, h1⟩

theorem Heap.step_inv {h : Heap} {a : List Bool} (hi : h.Inv) (ha : h.AliveIs a) (op : HOp)
    (hn : Heap.Names a op) : ∃ h', h.step op = some h' ∧ h'.Inv ∧ h'.AliveIs (Heap.alive a op) := by
  obtain ⟨h1, h2, h3, h4, h5⟩ := hi
  cases op with
  | construct =>
    refine ⟨_, rfl, ⟨?_, ?_, ?_, h4, h5⟩, ?_⟩
    · intro i p hp; simp only [List.getElem?_append] at hp; grind
    · intro i j p hp hq; simp only [List.getElem?_append] at hp hq; grind
    · intro p hp; obtain ⟨i, hi⟩ := h3 p hp; exact ⟨i, by simp only [List.getElem?_append]; grind⟩
    · simp [Heap.AliveIs, Heap.alive] at *; exact ha
  | grow i =>
    obtain ⟨d, hd⟩ := Heap.aliveIs_get ha hn
    obtain ⟨l, hl, hnd, hm⟩ := Heap.free_ok ⟨h1, h2, h3, h4, h5⟩ hd
    refine ⟨_, by simp only [Heap.step, hd, hl, Option.map_some]; rfl, ⟨?_, ?_, ?_, ?_, ?_⟩, ?_⟩
    · intro j p hp; simp only [List.getElem?_set] at hp; grind
    · intro j k p hp hq; simp only [List.getElem?_set] at hp hq; grind
    · intro p hp
      simp only [List.mem_cons] at hp
      rcases hp with rfl | hp
      · exact ⟨i, by simp only [List.getElem?_set]; grind⟩
      · obtain ⟨j, hj⟩ := h3 p ((hm p).1 hp).1
        exact ⟨j, by simp only [List.getElem?_set]; grind⟩
    · simp only [List.nodup_cons]; exact ⟨fun hc => by have := h5 _ ((hm _).1 hc).1; omega, hnd⟩
    · intro p hp; simp only [List.mem_cons] at hp ⊢; rcases hp with rfl | hp
      · exact Nat.lt_succ_self _
      · have := h5 _ ((hm _).1 hp).1; exact Nat.lt_succ_of_lt this
    · rw [Heap.AliveIs] at *; simp only [Heap.alive, ← ha, List.map_set]
      apply List.ext_getElem?; intro k; simp only [List.getElem?_set, List.getElem?_map, List.length_map]; grind
  | release i =>
    obtain ⟨d, hd⟩ := Heap.aliveIs_get ha hn
    obtain ⟨l, hl, hnd, hm⟩ := Heap.free_ok ⟨h1, h2, h3, h4, h5⟩ hd
    refine ⟨_, by simp only [Heap.step, hd, hl, Option.map_some]; rfl, ⟨?_, ?_, ?_, hnd, ?_⟩, ?_⟩
    · intro j p hp; simp only [List.getElem?_set] at hp; grind
    · intro j k p hp hq; simp only [List.getElem?_set] at hp hq; grind
    · intro p hp
      obtain ⟨j, hj⟩ := h3 p ((hm p).1 hp).1
      exact ⟨j, by simp only [List.getElem?_set]; grind⟩
    · intro p hp; exact h5 _ ((hm _).1 hp).1
    · rw [Heap.AliveIs] at *; simp only [Heap.alive, ← ha, List.map_set]
      apply List.ext_getElem?; intro k; simp only [List.getElem?_set, List.getElem?_map, List.length_map]; grind
  | swap i j =>
    obtain ⟨d, hd⟩ := Heap.aliveIs_get ha hn.1
    obtain ⟨e, he⟩ := Heap.aliveIs_get ha hn.2
    refine ⟨{ h with bufs := (h.bufs.set i (some e)).set j (some d) }, by simp only [Heap.step, hd, he], ⟨?_, ?_, ?_, h4, h5⟩, ?_⟩
    · intro k p hp; simp only [List.getElem?_set] at hp; grind
    · intro k m p hp hq; simp only [List.getElem?_set, List.length_set] at hp hq; grind
    · intro p hp
      obtain ⟨k, hk⟩ := h3 p hp
      by_cases hki : k = i
      · exact ⟨j, by simp only [List.getElem?_set, List.length_set]; grind⟩
      · by_cases hkj : k = j
        · exact ⟨i, by simp only [List.getElem?_set, List.length_set]; grind⟩
        · exact ⟨k, by simp only [List.getElem?_set, List.length_set]; grind⟩
    · rw [Heap.AliveIs] at *; simp only [Heap.alive, ← ha, List.map_set]
      apply List.ext_getElem?; intro k
      simp only [List.getElem?_set, List.getElem?_map, List.length_map, List.length_set]; grind
  | moveAssign i j =>
    obtain ⟨d, hd⟩ := Heap.aliveIs_get ha hn.1
    obtain ⟨e, he⟩ := Heap.aliveIs_get ha hn.2
    refine ⟨{ h with bufs := (h.bufs.set i (some e)).set j (some d) }, by simp only [Heap.step, hd, he], ⟨?_, ?_, ?_, h4, h5⟩, ?_⟩
    · intro k p hp; simp only [List.getElem?_set] at hp; grind
    · intro k m p hp hq; simp only [List.getElem?_set, List.length_set] at hp hq; grind
    · intro p hp
      obtain ⟨k, hk⟩ := h3 p hp
      by_cases hki : k = i
      · exact ⟨j, by simp only [List.getElem?_set, List.length_set]; grind⟩
      · by_cases hkj : k = j
        · exact ⟨i, by simp only [List.getElem?_set, List.length_set]; grind⟩
        · exact ⟨k, by simp only [List.getElem?_set, List.length_set]; grind⟩
    · rw [Heap.AliveIs] at *; simp only [Heap.alive, ← ha, List.map_set]
      apply List.ext_getElem?; intro k
      simp only [List.getElem?_set, List.getElem?_map, List.length_map, List.length_set]; grind
  | moveCtor i =>
    obtain ⟨d, hd⟩ := Heap.aliveIs_get ha hn
    refine ⟨{ h with bufs := (h.bufs.set i (some none)) ++ [some d] }, by simp only [Heap.step, hd], ⟨?_, ?_, ?_, h4, h5⟩, ?_⟩
    · intro j p hp; simp only [List.getElem?_append, List.getElem?_set, List.length_set] at hp; grind
    · intro j k p hp hq
      simp only [List.getElem?_append, List.getElem?_set, List.length_set] at hp hq; grind
    · intro p hp
      obtain ⟨j, hj⟩ := h3 p hp
      by_cases hji : j = i
      · exact ⟨h.bufs.length, by simp only [List.getElem?_append, List.getElem?_set, List.length_set]; grind⟩
      · exact ⟨j, by simp only [List.getElem?_append, List.getElem?_set, List.length_set]; grind⟩
    · rw [Heap.AliveIs] at *
      simp only [Heap.alive, ← ha, List.map_set, List.map_append]
      congr 1
      apply List.ext_getElem?; intro k; simp only [List.getElem?_set, List.getElem?_map, List.length_map]; grind
  | destroy i =>
    obtain ⟨d, hd⟩ := Heap.aliveIs_get ha hn
    obtain ⟨l, hl, hnd, hm⟩ := Heap.free_ok ⟨h1, h2, h3, h4, h5⟩ hd
    refine ⟨_, by simp only [Heap.step, hd, hl, Option.map_some]; rfl, ⟨?_, ?_, ?_, hnd, ?_⟩, ?_⟩
    · intro j p hp; simp only [List.getElem?_set] at hp; grind
    · intro j k p hp hq; simp only [List.getElem?_set] at hp hq; grind
    · intro p hp
      obtain ⟨j, hj⟩ := h3 p ((hm p).1 hp).1
      exact ⟨j, by simp only [List.getElem?_set]; grind⟩
    · intro p hp; exact h5 _ ((hm _).1 hp).1
    · rw [Heap.AliveIs] at *; simp only [Heap.alive, ← ha, List.map_set]; rfl

theorem Heap.run_inv (ops : List HOp) : ∀ {h : Heap} {a : List Bool}, h.Inv → h.AliveIs a →
    Heap.NamesHist a ops → ∃ h', Heap.run ops h = some h' ∧ h'.Inv ∧ h'.AliveIs (ops.foldl Heap.alive a) := by
  induction ops with
  | nil => intro h a hi ha _; exact ⟨h, rfl, hi, ha⟩
  | cons op ops ih =>
    intro h a hi ha hn
    obtain ⟨h1, e1, i1, a1⟩ := Heap.step_inv hi ha op hn.1
    obtain ⟨h2, e2, i2, a2⟩ := ih i1 a1 hn.2
    exact ⟨h2, by simp [Heap.run, e1, e2], i2, a2⟩

end Verif
