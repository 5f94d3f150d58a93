import Verif.Xdr
/-
C71: what is written to an XDR buffer comes out again in order.
-/
namespace Verif.Xdr

/-! ### Specification -/

/-- What a program does with a buffer: write a value (the bytes of its XDR form), read one of n bytes, write and read
raw data, start reading from the beginning. -/
inductive Op
  | write (bs : List UInt8)
  | read (n : Nat)
  | writeRaw (bs : List UInt8)
  | readRaw (n : Nat)
  | rewind

/-- Raw data filled up to a multiple of four. -/
def padded (bs : List UInt8) : List UInt8 := bs ++ List.replicate ((4 - bs.length % 4) % 4) 0

/-- The bytes written by some operations. -/
def written : List Op → List UInt8
  | [] => []
  | .write bs :: ops => bs ++ written ops
  | .writeRaw bs :: ops => padded bs ++ written ops
  | _ :: ops => written ops

/-- What is to be read, `w` having been written and `r` bytes of it read. -/
def expected (w : List UInt8) (r : Nat) : List Op → List (List UInt8)
  | [] => []
  | .write bs :: ops => expected (w ++ bs) r ops
  | .writeRaw bs :: ops => expected (w ++ padded bs) r ops
  | .read n :: ops => (w.drop r).take n :: expected w (r + n) ops
  | .readRaw n :: ops => (w.drop r).take n :: expected w (r + n + (4 - n % 4) % 4) ops
  | .rewind :: ops => expected w 0 ops

/-- Values take at least four bytes; no more is read than has been written. -/
def Valid (w r : Nat) : List Op → Prop
  | [] => True
  | .write bs :: ops => 4 ≤ bs.length ∧ Valid (w + bs.length) r ops
  | .writeRaw bs :: ops => Valid (w + (padded bs).length) r ops
  | .read n :: ops => r + n ≤ w ∧ Valid w (r + n) ops
  | .readRaw n :: ops => r + n + (4 - n % 4) % 4 ≤ w ∧ Valid w (r + n + (4 - n % 4) % 4) ops
  | .rewind :: ops => Valid w 0 ops

/-- The operations executed on a buffer. -/
def exec (x : X) : List Op → Option (List (List UInt8) × X)
  | [] => some ([], x)
  | .write bs :: ops =>
    match append x bs with
    | none => none
    | some x' => exec x' ops
  | .writeRaw bs :: ops =>
    match packraw x bs with
    | none => none
    | some x' => exec x' ops
  | .read n :: ops =>
    match popoff x n with
    | none => none
    | some (bs, x') =>
      match exec x' ops with
      | none => none
      | some (out, x'') => some (bs :: out, x'')
  | .readRaw n :: ops =>
    match unpackraw x n with
    | none => none
    | some (bs, x') =>
      match exec x' ops with
      | none => none
      | some (out, x'') => some (bs :: out, x'')
  | .rewind :: ops => exec (reseto x) ops

/-! ### Lemmas -/

/-- The memory starts with these bytes. -/
private def Starts (mem : Nat → UInt8) (w : List UInt8) : Prop := ∀ i (h : i < w.length), mem i = w[i]

private theorem starts_store {mem : Nat → UInt8} {w : List UInt8} (h : Starts mem w) (bs : List UInt8) :
    Starts (store mem w.length bs) (w ++ bs) := by
  intro i hi
  unfold store
  split
  · rename_i hc
    rw [List.getElem_append_right hc.1]
  · rename_i hc
    have : i < w.length := by
      simp only [List.length_append] at hi
      omega
    rw [h i this, List.getElem_append_left this]

private theorem load_starts {mem : Nat → UInt8} {w : List UInt8} (h : Starts mem w) (r n : Nat) (hn : r + n ≤ w.length) :
    load mem r n = (w.drop r).take n := by
  apply List.ext_getElem
  · simp [load]; omega
  · intro i h1 h2
    have hi : i < n := by simpa [load] using h1
    simp only [load, List.getElem_map, List.getElem_range, List.getElem_take, List.getElem_drop]
    exact h (r + i) (by omega)

private theorem load_take (mem : Nat → UInt8) (r n m : Nat) : (load mem r (n + m)).take n = load mem r n := by
  apply List.ext_getElem
  · simp [load]
  · intro i h1 h2
    simp [load]

/-- A buffer that has not left its first chunk. -/
private structure Inv (sz : Nat) (w : List UInt8) (r : Nat) (x : X) : Prop where
  mem : Starts x.mem w
  asize : x.asize = 0
  inPos : x.inPos = w.length
  inLen : x.inLen = sz
  outPos : x.outPos = r
  outLen : x.outLen = sz

private theorem inv_put {sz : Nat} {w : List UInt8} {r : Nat} {x : X} (h : Inv sz w r x) (bs : List UInt8)
    (hs : w.length + bs.length ≤ sz) : ∃ x', put x bs = some x' ∧ Inv sz (w ++ bs) r x' ∧ x'.size = (w ++ bs).length := by
  unfold put
  rw [if_pos (by rw [h.inPos, h.inLen]; exact hs)]
  refine ⟨_, rfl, ⟨?_, h.asize, ?_, h.inLen, h.outPos, h.outLen⟩, ?_⟩
  · simp only [h.asize, h.inPos, Nat.zero_add]
    exact starts_store h.mem bs
  · simp [h.inPos]
  · simp [h.asize, h.inPos]

private theorem inv_pop {sz : Nat} {w : List UInt8} {r : Nat} {x : X} (h : Inv sz w r x) (n : Nat)
    (hn : r + n ≤ w.length) (hw : w.length ≤ sz) :
    ∃ x', popoff x n = some ((w.drop r).take n, x') ∧ Inv sz w (r + n) x' ∧ x'.size = x.size := by
  unfold popoff
  rw [if_pos (by rw [h.outPos, h.outLen]; omega), h.outPos, load_starts h.mem r n hn]
  exact ⟨_, rfl, ⟨h.mem, h.asize, h.inPos, h.inLen, rfl, h.outLen⟩, rfl⟩

private theorem run_ok {sz : Nat} : ∀ (ops : List Op) (w : List UInt8) (r : Nat) (x : X), Inv sz w r x → r ≤ w.length →
    Valid w.length r ops → w.length + (written ops).length ≤ 1020 → w.length + (written ops).length ≤ sz →
    ∃ x', exec x ops = some (expected w r ops, x') ∧
      (written ops ≠ [] ∨ x.size = w.length → x'.size = w.length + (written ops).length)
  | [], w, r, x, h, _, _, _, _ => ⟨x, rfl, by simp [written]⟩
  | .write bs :: ops, w, r, x, h, hr, hv, h1, h2 => by
    simp only [written, List.length_append] at h1 h2
    obtain ⟨hb, hv⟩ := hv
    have hsh : short x 8 = false := by
      unfold short chunk
      rw [h.inPos]
      simp; omega
    obtain ⟨x', hp, hi, hz⟩ := inv_put h bs (by omega)
    obtain ⟨x'', he, hq⟩ := run_ok ops (w ++ bs) r x' hi (by simp; omega) (by simpa using hv) (by simp; omega)
      (by simp; omega)
    refine ⟨x'', ?_, ?_⟩
    · simp only [exec, append, hsh, Bool.false_eq_true, if_false, hp, expected]
      exact he
    · intro _
      rw [hq (.inr hz)]
      simp [written]; omega
  | .writeRaw bs :: ops, w, r, x, h, hr, hv, h1, h2 => by
    simp only [written, List.length_append] at h1 h2
    simp only [Valid] at hv
    have hlen : (padded bs).length = bs.length + (4 - bs.length % 4) % 4 := by simp [padded]
    have hsh : short x bs.length = false := by
      unfold short chunk
      rw [h.inPos]
      simp; omega
    obtain ⟨x', hp, hi, hz⟩ := inv_put h (padded bs) (by omega)
    obtain ⟨x'', he, hq⟩ := run_ok ops (w ++ padded bs) r x' hi (by simp; omega) (by simpa using hv) (by simp; omega)
      (by simp; omega)
    refine ⟨x'', ?_, ?_⟩
    · simp only [exec, packraw, hsh, Bool.false_eq_true, if_false, expected]
      rw [show bs ++ List.replicate (pad bs.length) 0 = padded bs from rfl, hp]
      exact he
    · intro _
      rw [hq (.inr hz)]
      simp [written]; omega
  | .read n :: ops, w, r, x, h, hr, hv, h1, h2 => by
    simp only [written] at h1 h2
    obtain ⟨x', hp, hi, hz⟩ := inv_pop h n hv.1 (by omega)
    obtain ⟨x'', he, hq⟩ := run_ok ops w (r + n) x' hi hv.1 hv.2 h1 h2
    refine ⟨x'', by simp only [exec, hp, he, expected], fun hh => hq ?_⟩
    rw [hz]; simpa [written] using hh
  | .readRaw n :: ops, w, r, x, h, hr, hv, h1, h2 => by
    simp only [written] at h1 h2
    have hn := hv.1
    obtain ⟨x', hp, hi, hz⟩ := inv_pop h (n + pad n) (by unfold pad; omega) (by omega)
    obtain ⟨x'', he, hq⟩ := run_ok ops w (r + n + (4 - n % 4) % 4) x' (by rw [Nat.add_assoc]; exact hi) hn hv.2 h1 h2
    refine ⟨x'', ?_, fun hh => hq ?_⟩
    · have ht : List.take n (List.take (n + pad n) (w.drop r)) = List.take n (w.drop r) := by
        rw [List.take_take, Nat.min_eq_left (by omega)]
      simp only [exec, unpackraw, hp, he, expected, ht]
    · rw [hz]; simpa [written] using hh
  | .rewind :: ops, w, r, x, h, hr, hv, h1, h2 => by
    simp only [written] at h1 h2
    have hi : Inv sz w 0 (reseto x) := by
      unfold reseto setOut
      rw [if_pos ⟨by omega, by omega⟩]
      exact ⟨h.mem, h.asize, h.inPos, h.inLen, rfl, h.outLen⟩
    have hz : (reseto x).size = x.size := by
      unfold reseto setOut
      split <;> rfl
    obtain ⟨x'', he, hq⟩ := run_ok ops w 0 (reseto x) hi (by omega) hv h1 h2
    refine ⟨x'', by simp only [exec, he, expected], fun hh => hq ?_⟩
    rw [hz]; simpa [written] using hh

/-! ### Theorems -/

/-- As long as no more than 1020 bytes are written, and the buffer was made that large, whatever is written to a buffer
and read from it in whatever order, what is read is what was written, in order; and after something has been written
size() is the number of bytes. -/
theorem C71_fifo_partial (mem : Nat → UInt8) (sz : Nat) (ops : List Op) (hv : Valid 0 0 ops)
    (h1 : (written ops).length ≤ 1020) (h2 : (written ops).length ≤ sz) :
    ∃ x', exec (fresh mem sz) ops = some (expected [] 0 ops, x') ∧
      (written ops ≠ [] → x'.size = (written ops).length) := by
  have := run_ok (sz := sz) ops [] 0 (fresh mem sz)
    ⟨fun i hi => by simp at hi, rfl, rfl, rfl, rfl, rfl⟩ (by simp) (by simpa using hv) (by simpa using h1) (by simpa using h2)
  obtain ⟨x', he, hs⟩ := this
  exact ⟨x', he, fun hne => by simpa using hs (.inl hne)⟩

/-- Values written one after the other. -/
def writeAll (x : X) : List (List UInt8) → Option X
  | [] => some x
  | bs :: l => (append x bs).bind fun x' => writeAll x' l

/-- Values of these lengths read one after the other. -/
def readAll (x : X) : List Nat → Option (List (List UInt8))
  | [] => some []
  | n :: l => (popoff x n).bind fun r => (readAll r.2 l).map (r.1 :: ·)

/-- A default constructed buffer to which `w` bytes of values have been written. -/
structure InChunk (w : Nat) (x : X) : Prop where
  inPos : x.inPos ≤ chunk
  inLen : x.inLen = chunk
  outLen : x.outLen = chunk
  total : x.asize + x.inPos = w

private theorem inv2_append {w : Nat} {x : X} (h : InChunk w x) (bs : List UInt8) (hb : bs.length ≤ 8) :
    ∃ x', append x bs = some x' ∧ InChunk (w + bs.length) x' ∧ x'.size = w + bs.length := by
  unfold append put
  have := h.total
  have hi := h.inPos
  by_cases hs : short x 8 = true
  · simp only [hs, if_true, grow]
    rw [if_pos (by unfold chunk; omega)]
    refine ⟨_, rfl, ⟨?_, rfl, rfl, ?_⟩, ?_⟩ <;> simp [chunk] <;> omega
  · have hsf : short x 8 = false := by simpa using hs
    have hlt : x.inPos + 8 ≤ chunk := by
      unfold short at hsf
      simp only [Bool.and_eq_false_iff, decide_eq_false_iff_not] at hsf
      omega
    simp only [hsf, Bool.false_eq_true, if_false]
    rw [if_pos (by rw [h.inLen]; omega)]
    refine ⟨_, rfl, ⟨?_, h.inLen, h.outLen, ?_⟩, ?_⟩ <;> simp <;> omega

private theorem writeAll_ok : ∀ (l : List (List UInt8)) (w : Nat) (x : X), InChunk w x → (∀ bs ∈ l, bs.length ≤ 8) →
    ∃ x', writeAll x l = some x' ∧ InChunk (w + l.flatten.length) x'
  | [], w, x, h, _ => ⟨x, rfl, by simpa using h⟩
  | bs :: l, w, x, h, hb => by
    obtain ⟨x', h1, h2, _⟩ := inv2_append h bs (hb bs (by simp))
    obtain ⟨x'', h3, h4⟩ := writeAll_ok l _ x' h2 (fun c hc => hb c (by simp [hc]))
    refine ⟨x'', by simp [writeAll, h1, h3], ?_⟩
    simpa [Nat.add_assoc] using h4

private theorem readAll_none : ∀ (l : List Nat) (x : X), x.outLen < x.outPos + l.sum → readAll x l = none ∨ l = []
  | [], x, h => .inr rfl
  | n :: l, x, h => by
    left
    unfold readAll popoff
    by_cases hc : x.outPos + n ≤ x.outLen
    · rw [if_pos hc]
      simp only [Option.bind_some]
      rw [List.sum_cons] at h
      rcases readAll_none l { x with outPos := x.outPos + n, pos := x.outPos + n } (by simp; omega) with hn | hn
      · rw [hn]; rfl
      · subst hn; simp at h; omega
    · rw [if_neg hc]; rfl

/-- Writing more than 1024 bytes of values succeeds, and size() is right; but reading them back fails, for every such
list of values. -/
theorem C71_chunk_fails (mem : Nat → UInt8) (l : List (List UInt8)) (hb : ∀ bs ∈ l, bs.length ≤ 8)
    (hl : 1024 < l.flatten.length) :
    ∃ x, writeAll (fresh mem 1024) l = some x ∧ x.asize + x.inPos = l.flatten.length ∧
      readAll x (l.map List.length) = none := by
  obtain ⟨x, h1, h2⟩ := writeAll_ok l 0 (fresh mem 1024) ⟨by simp [fresh], rfl, rfl, rfl⟩ hb
  refine ⟨x, h1, by simpa using h2.total, ?_⟩
  rcases readAll_none (l.map List.length) x (by rw [h2.outLen, ← List.length_flatten]; unfold chunk; omega) with h | h
  · exact h
  · have : l = [] := by simpa using h
    subst this; simp at hl

/-- Writing into the last bytes of a chunk puts the reading position back to the start: the value read next is the
first one again. -/
theorem C71_rewind_fails (x : X) (bs : List UInt8) (h : InChunk (x.asize + x.inPos) x) (hp : 1016 < x.inPos)
    (hb : bs.length ≤ 8) (n : Nat) (hn : n ≤ 1016) :
    ∃ x', append x bs = some x' ∧ x'.outPos = 0 ∧ ∃ x'', popoff x' n = some (load x.mem 0 n, x'') := by
  have hs : short x 8 = true := by
    have := h.inPos
    unfold short chunk at *
    simp; omega
  unfold append put
  simp only [hs, if_true, grow]
  rw [if_pos (by unfold chunk; omega)]
  refine ⟨_, rfl, rfl, ?_⟩
  unfold popoff
  rw [if_pos (by simp [chunk]; omega)]
  refine ⟨_, congrArg some (Prod.ext ?_ rfl)⟩
  simp only [load]
  apply List.map_congr_left
  intro i hi
  rw [List.mem_range] at hi
  unfold store
  rw [dif_neg (by omega)]

/-- Reading from a buffer that nothing has been written to succeeds and gives whatever its memory holds; size() is
1024. -/
theorem C71_empty_fails (mem : Nat → UInt8) (n : Nat) (hn : n ≤ 1024) :
    (∃ x', popoff (fresh mem 1024) n = some (load mem 0 n, x')) ∧ (fresh mem 1024).size = 1024 := by
  refine ⟨?_, rfl⟩
  unfold popoff
  rw [if_pos (by simpa [fresh] using hn)]
  exact ⟨_, rfl⟩

/-- Raw data of more than 1024 bytes cannot be written. -/
theorem C71_raw_fails (x : X) (bs : List UInt8) (h : x.inPos ≤ 1024) (hb : 1024 < bs.length) : packraw x bs = none := by
  have hs : short x bs.length = true := by
    unfold short chunk
    simp; omega
  unfold packraw put
  simp only [hs, if_true, grow]
  rw [if_neg (by simp [chunk]; omega)]

/-- Moving the writing position back within the current chunk, or into the first one, takes it where it should be. -/
theorem C71_seek_partial (x : X) (offs : Int) (ho : offs ≤ 0) (hl : x.inPos ≤ x.inLen)
    (hq : 0 ≤ (x.asize + x.inPos : Int) + offs) (hc : 0 ≤ (x.inPos : Int) + offs ∨ (x.asize + x.inPos : Int) + offs < 1024) :
    ((seeki x offs).asize + (seeki x offs).inPos : Int) = x.asize + x.inPos + offs ∧
    ((seeki x offs).size : Int) = x.asize + x.inPos + offs ∧ (seeki x offs).mem = x.mem := by
  unfold seeki
  by_cases hp : (x.inPos : Int) + offs < 0
  · simp only [hp, if_true]
    have hlt : (x.asize + x.inPos : Int) + offs < 1024 := by omega
    have hd : ((x.inPos : Int) + offs + x.asize) / (chunk : Int) = 0 :=
      Int.ediv_eq_zero_of_lt (by omega) (by unfold chunk; omega)
    have hm : ((x.inPos : Int) + offs + x.asize) % (chunk : Int) = x.inPos + offs + x.asize :=
      Int.emod_eq_of_lt (by omega) (by unfold chunk; omega)
    rw [hd, hm]
    unfold setIn
    rw [if_pos ⟨by omega, by simp only [chunk]; omega⟩]
    simp
    omega
  · simp only [hp, if_false]
    unfold setIn
    rw [if_pos ⟨by omega, by omega⟩]
    simp
    omega

/-- Moving it back over the start of a chunk to anywhere at or after byte 1024 takes it to another place. -/
theorem C71_seek_fails (x : X) (offs : Int) (hp : (x.inPos : Int) + offs < 0)
    (hq : 1024 ≤ (x.asize + x.inPos : Int) + offs) :
    ((seeki x offs).size : Int) < x.asize + x.inPos + offs ∧
    ((seeki x offs).asize + (seeki x offs).inPos : Int) < x.asize + x.inPos + offs := by
  unfold seeki
  simp only [hp, if_true]
  generalize hqq : (x.inPos : Int) + offs + x.asize = q
  have h1 : (chunk : Int) = 1024 := rfl
  have h2 : q / 1024 < q - q % 1024 := by omega
  have h3 : 0 ≤ q % 1024 := Int.emod_nonneg _ (by omega)
  have h5 : 0 ≤ q / 1024 := by omega
  unfold setIn
  rw [h1]
  rw [if_pos ⟨by omega, by show _ ≤ (1024 : Int); omega⟩]
  simp only
  omega

/-- reseto moves the stream back but not what pos() tells. -/
theorem C71_pos_fails (x : X) : (reseto x).outPos = 0 ∧ (reseto x).pos = x.pos := by
  unfold reseto setOut
  rw [if_pos ⟨by omega, by omega⟩]
  exact ⟨rfl, rfl⟩

/-- Swapping two buffers gives the first one the decoding stream of the second for its encoding stream, and leaves it
its own decoding stream. -/
theorem C71_swap_fails {α : Type} (a b : α × α) :
    (swapStreams a b).1 = (b.2, a.2) ∧ (swapStreams a b).2 = (a.1, b.1) := ⟨rfl, rfl⟩

/-- A mixed program within the limits; 257 values of four bytes; a state near the end of a chunk. -/
example : Valid 0 0 [.write [0, 0, 0, 1], .writeRaw [7], .read 4, .rewind, .read 4, .readRaw 1] := by
  simp [Valid, padded]
example : expected [] 0 [.write [0, 0, 0, 1], .writeRaw [7], .read 4, .rewind, .read 4, .readRaw 1] =
    [[0, 0, 0, 1], [0, 0, 0, 1], [7]] := by decide
example : (∀ bs ∈ List.replicate 257 [0, 0, 0, (1 : UInt8)], bs.length ≤ 8) ∧
    1024 < (List.replicate 257 [0, 0, 0, (1 : UInt8)]).flatten.length := by
  refine ⟨fun bs h => by rw [(List.mem_replicate.1 h).2]; decide, by rw [List.length_flatten, List.map_replicate, List.sum_replicate_nat]; decide⟩
example (mem : Nat → UInt8) : (1016 < (1020 : Nat)) ∧ InChunk (0 + 1020) ⟨mem, 0, 1020, 1024, 8, 1024, 1020, 8⟩ :=
  ⟨by decide, ⟨show 1020 ≤ 1024 by decide, rfl, rfl, rfl⟩⟩

end Verif.Xdr
