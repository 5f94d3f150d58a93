import Verif.File
/- C109, C110 -/
namespace Verif.File

/-! ### Specification -/

/-- A file with contents `c`, of which `p` bytes have been read. -/
def C109.reader (c : Bytes) (p : Nat) : PF := ⟨⟨c, p⟩, false, 0, p⟩

/-- A buffer in memory with the same contents, read as far. -/
structure C109.Twin (c : Bytes) (p : Nat) (b : Buf) : Prop where
  inv : b.Inv
  content : b.content = c
  pos : b.pos = p
  le : p ≤ c.length
  lt : c.length < 2 ^ 63

/-- Programs that ask for less than 2^63 bytes at a time, and for numbers of at least one byte. -/
def C109.Small {α : Type} : Client α → Prop
  | .done _ => True
  | .num n k => 0 < n ∧ n < 2 ^ 63 ∧ ∀ xs, C109.Small (k xs)
  | .raw n k => n < 2 ^ 63 ∧ ∀ xs, C109.Small (k xs)

/-- All that is written, one thing after the other. -/
def C109.text (ws : List W) : Bytes := ws.flatMap W.bytes

/-- Numbers have at least one byte. -/
def C109.Real (ws : List W) : Prop := ∀ xs, .num xs ∈ ws → xs ≠ []

/-- A program that reads what was written, piece by piece, behind what it has read before. -/
def C109.reading (acc : List Bytes) : List W → Client (List Bytes)
  | [] => .done acc
  | .num xs :: ws => .num xs.length fun a => C109.reading (acc ++ [a]) ws
  | .raw xs :: ws => .raw xs.length fun a => C109.reading (acc ++ [a]) ws

open C109

/-! ### Reading -/

private theorem popoff_eq {n : Nat} (hn : 0 < n) (p : PF) : popoff n p = unpackraw n p := by
  have : n ≠ 0 := by omega
  simp [popoff, unpackraw, this]

private theorem file_ok {c : Bytes} {p n : Nat} (h : p + n ≤ c.length) :
    unpackraw n (reader c p) = (some ((c.drop p).take n), reader c (p + n)) := by
  by_cases hn : n = 0
  · simp [unpackraw, reader, hn]
  · simp [unpackraw, reader, hn, fread, h]

private theorem file_fail {c : Bytes} {p n : Nat} (hp : p ≤ c.length) (h : c.length < p + n) :
    unpackraw n (reader c p) = (none, ⟨⟨c, c.length⟩, false, 0, p⟩) := by
  have h1 : ¬ p + n ≤ c.length := by omega
  have h2 : n ≠ 0 := by omega
  simp [unpackraw, reader, h2, fread, h1]
  omega

private theorem C109.Twin.size {c : Bytes} {p : Nat} {b : Buf} (h : Twin c p b) : b.size = c.length := by
  rw [← Buf.content_length h.inv, h.content]

private theorem C109.Twin.adv {c : Bytes} {p n : Nat} {b : Buf} (h : Twin c p b) (hn : p + n ≤ c.length) : Twin c (p + n) (b.adv n) := by
  refine ⟨Buf.inv_adv h.inv n ?_, ?_, ?_, hn, h.lt⟩
  · rw [h.pos, h.size]; exact hn
  · rw [← h.content]; rfl
  · simp [h.pos]

private theorem mem_ok {c : Bytes} {p n : Nat} {b : Buf} (h : Twin c p b) (hn : p + n ≤ c.length) :
    Buf.unpackraw n b = (.ok ((c.drop p).take n), b.adv n) := by
  rw [Buf.unpackraw_ok h.inv n (by rw [h.pos, h.size]; exact hn)]
  simp only [Buf.rest, h.content, h.pos]

private theorem mem_fail {c : Bytes} {p n : Nat} {b : Buf} (h : Twin c p b) (hs : n < 2 ^ 63) (hn : c.length < p + n) :
    Buf.unpackraw n b = (.throw .eof, b) := by
  have := h.le
  have := h.lt
  apply Buf.unpackraw_throw
  · rw [h.pos]; omega
  · rw [h.pos, h.size]; exact hn

private theorem reads {α : Type} : ∀ (k : Client α), Small k → ∀ (c : Bytes) (p : Nat) (b : Buf), Twin c p b →
    (∃ a b' p', k.mem b = (.ok a, b') ∧ k.file (reader c p) = (some a, reader c p') ∧ Twin c p' b') ∨
    ((∃ b', k.mem b = (.throw .eof, b')) ∧ (k.file (reader c p)).1 = none)
  | .done a, _, c, p, b, h => .inl ⟨a, b, p, rfl, rfl, h⟩
  | .num n k, hk, c, p, b, h => by
    obtain ⟨h0, hs, hk⟩ : 0 < n ∧ n < 2 ^ 63 ∧ ∀ xs, Small (k xs) := hk
    rw [Client.mem, Client.file, popoff_eq h0, Buf.popoff_eq]
    by_cases hn : p + n ≤ c.length
    · rw [file_ok hn]
      simp only [M.bind, mem_ok h hn]
      exact reads (k _) (hk _) c (p + n) _ (h.adv hn)
    · rw [file_fail h.le (by omega)]
      simp only [M.bind, mem_fail h hs (by omega)]
      exact .inr ⟨⟨_, rfl⟩, trivial⟩
  | .raw n k, hk, c, p, b, h => by
    obtain ⟨hs, hk⟩ : n < 2 ^ 63 ∧ ∀ xs, Small (k xs) := hk
    rw [Client.mem, Client.file]
    by_cases hn : p + n ≤ c.length
    · rw [file_ok hn]
      simp only [M.bind, mem_ok h hn]
      exact reads (k _) (hk _) c (p + n) _ (h.adv hn)
    · rw [file_fail h.le (by omega)]
      simp only [M.bind, mem_fail h hs (by omega)]
      exact .inr ⟨⟨_, rfl⟩, trivial⟩

/-! ### Writing -/

private theorem write_end (xs d : Bytes) (hx : xs ≠ []) : fwrite xs ⟨d, d.length⟩ = (1, ⟨d ++ xs, (d ++ xs).length⟩) := by
  simp [fwrite, hx]

private theorem writes : ∀ (ws : List W), Real ws → ∀ (d : Bytes) (sz ps : Nat), ∃ sz',
    writeAll ws ⟨⟨d, d.length⟩, true, sz, ps⟩ = (some (), ⟨⟨d ++ text ws, (d ++ text ws).length⟩, true, sz', ps⟩)
  | [], _, d, sz, ps => ⟨sz, by simp [writeAll, text]⟩
  | .num xs :: ws, h, d, sz, ps => by
    have hx := h xs (.head _)
    obtain ⟨sz', e⟩ := writes ws (fun ys hy => h ys (.tail _ hy)) (d ++ xs) (sz + xs.length) ps
    refine ⟨sz', ?_⟩
    simp only [writeAll, append, write_end xs d hx]
    simpa [text, W.bytes] using e
  | .raw xs :: ws, h, d, sz, ps => by
    by_cases hx : xs = []
    · subst hx
      obtain ⟨sz', e⟩ := writes ws (fun ys hy => h ys (.tail _ hy)) d sz ps
      exact ⟨sz', by simpa [writeAll, packraw, text, W.bytes] using e⟩
    · obtain ⟨sz', e⟩ := writes ws (fun ys hy => h ys (.tail _ hy)) (d ++ xs) sz ps
      refine ⟨sz', ?_⟩
      simp only [writeAll, packraw, if_neg hx, write_end xs d hx]
      simpa [text, W.bytes] using e

/-! ### Theorems -/

/-- C109: any program of reads does with a file what it does with a buffer in memory, up to the first exception, from any position. -/
theorem C109_reads {α : Type} (k : Client α) (hk : Small k) (c : Bytes) (p : Nat) (b : Buf) (h : Twin c p b) :
    (∃ a b' p', k.mem b = (.ok a, b') ∧ k.file (reader c p) = (some a, reader c p') ∧ Twin c p' b') ∨
    ((∃ b', k.mem b = (.throw .eof, b')) ∧ (k.file (reader c p)).1 = none) := reads k hk c p b h

/-- C109: a new file has what is written to it, in order. -/
theorem C109_written (ws : List W) (h : Real ws) : ∃ p, writeAll ws openW = (some (), p) ∧ p.fs.data = text ws := by
  obtain ⟨sz, e⟩ := writes ws h [] 0 0
  exact ⟨_, e, by simp⟩

/-- C109: what was written to a file is read from it again, piece by piece. -/
theorem C109_roundtrip (ws : List W) (h : Real ws) : ∃ p, writeAll ws openW = (some (), p) ∧
    (reading [] ws).file (openR p.fs.data) = (some (ws.map W.bytes), reader (text ws) (text ws).length) := by
  obtain ⟨p, e, hp⟩ := C109_written ws h
  refine ⟨p, e, ?_⟩
  rw [hp]
  have key : ∀ (ws : List W) (acc : List Bytes) (pre : Bytes), Real ws →
      (reading acc ws).file (reader (pre ++ text ws) pre.length) = (some (acc ++ ws.map W.bytes), reader (pre ++ text ws) (pre ++ text ws).length) := by
    intro ws
    induction ws with
    | nil => intro acc pre _; simp [reading, Client.file, text]
    | cons w ws ih =>
      intro acc pre hr
      have ih := ih (acc ++ [w.bytes]) (pre ++ w.bytes) fun xs hx => hr xs (.tail _ hx)
      have et : text (w :: ws) = w.bytes ++ text ws := by simp [text]
      have step : unpackraw w.bytes.length (reader (pre ++ text (w :: ws)) pre.length) =
          (some w.bytes, reader (pre ++ text (w :: ws)) (pre ++ w.bytes).length) := by
        rw [file_ok (by simp [et]), et]
        simp
      rw [et, ← List.append_assoc]
      rw [et, ← List.append_assoc] at step
      cases w with
      | num xs =>
        have h0 : 0 < xs.length := List.length_pos_iff.2 (hr xs (.head _))
        rw [reading, Client.file, popoff_eq h0, show unpackraw xs.length _ = _ from step]
        simpa using ih
      | raw xs =>
        rw [reading, Client.file, show unpackraw xs.length _ = _ from step]
        simpa using ih
  exact key ws [] [] h

/-- C109: a file that is read can be read again from the beginning. -/
theorem C109_rewind (c : Bytes) (p : Nat) : reseto (reader c p) = openR c := rfl

/-- C110: moving in a file that is read, to a place in it. -/
theorem C110_seek_partial (c : Bytes) (p : Nat) (d : Int) (h0 : 0 ≤ (p : Int) + d) (h1 : (p : Int) + d < 2 ^ 63) :
    seeko d (reader c p) = reader c ((p : Int) + d).toNat := by
  have h2 : ¬ (p : Int) + d < 0 := by omega
  have h3 : ((p : Int) + d) % (W64 : Int) = (p : Int) + d := Int.emod_eq_of_lt h0 (by omega)
  have h3 : ((p : Int) + d) % 18446744073709551616 = (p : Int) + d := h3
  simp [seeko, reader, fseekCur, h2, h3]

private theorem write_at (xs pre mid : Bytes) (hx : xs ≠ []) :
    fwrite xs ⟨pre ++ mid, pre.length⟩ = (1, ⟨(pre ++ xs) ++ mid.drop xs.length, (pre ++ xs).length⟩) := by
  simp [fwrite, hx, List.drop_append]

private theorem writes_at : ∀ (ws : List W), Real ws → ∀ (pre mid : Bytes) (sz ps : Nat), ∃ sz',
    writeAll ws ⟨⟨pre ++ mid, pre.length⟩, true, sz, ps⟩ =
      (some (), ⟨⟨(pre ++ text ws) ++ mid.drop (text ws).length, (pre ++ text ws).length⟩, true, sz', ps⟩)
  | [], _, pre, mid, sz, ps => ⟨sz, by simp [writeAll, text]⟩
  | .num xs :: ws, h, pre, mid, sz, ps => by
    have hx := h xs (.head _)
    obtain ⟨sz', e⟩ := writes_at ws (fun ys hy => h ys (.tail _ hy)) (pre ++ xs) (mid.drop xs.length) (sz + xs.length) ps
    refine ⟨sz', ?_⟩
    simp only [writeAll, append, write_at xs pre mid hx]
    simpa [text, W.bytes] using e
  | .raw xs :: ws, h, pre, mid, sz, ps => by
    by_cases hx : xs = []
    · subst hx
      obtain ⟨sz', e⟩ := writes_at ws (fun ys hy => h ys (.tail _ hy)) pre mid sz ps
      exact ⟨sz', by simpa [writeAll, packraw, text, W.bytes] using e⟩
    · obtain ⟨sz', e⟩ := writes_at ws (fun ys hy => h ys (.tail _ hy)) (pre ++ xs) (mid.drop xs.length) sz ps
      refine ⟨sz', ?_⟩
      simp only [writeAll, packraw, if_neg hx, write_at xs pre mid hx]
      simpa [text, W.bytes] using e

/-- C110: going back `k` bytes while writing, the bytes written then replace those there were; if there are at least `k` of them, the
file has what a buffer in memory would. -/
theorem C110_seek_back_partial (ws : List W) (h : Real ws) (k : Nat) (hk : k ≤ (text ws).length) (vs : List W) (hv : Real vs) :
    ∃ p q, writeAll ws openW = (some (), p) ∧ writeAll vs (seeki k p) = (some (), q) ∧
      q.fs.data = (text ws).take ((text ws).length - k) ++ text vs ++ (text ws).drop ((text ws).length - k + (text vs).length) ∧
      (k ≤ (text vs).length → q.fs.data = (text ws).take ((text ws).length - k) ++ text vs) := by
  obtain ⟨sz, e⟩ := writes ws h [] 0 0
  have es : seeki k ⟨⟨[] ++ text ws, ([] ++ text ws).length⟩, true, sz, 0⟩ =
      ⟨⟨(text ws).take ((text ws).length - k) ++ (text ws).drop ((text ws).length - k), ((text ws).take ((text ws).length - k)).length⟩, true,
        (sz + (W64 - k % W64)) % W64, 0⟩ := by
    have h1 : ¬ ((text ws).length : Int) + -(k : Int) < 0 := by omega
    simp only [seeki, fseekCur, List.nil_append, if_neg h1, List.take_append_drop]
    simp
    omega
  obtain ⟨sz', e'⟩ := writes_at vs hv ((text ws).take ((text ws).length - k)) ((text ws).drop ((text ws).length - k)) ((sz + (W64 - k % W64)) % W64) 0
  rw [← es] at e'
  refine ⟨_, _, e, e', by simp, ?_⟩
  intro hl
  have : List.drop ((text ws).length - k + (text vs).length) (text ws) = [] := List.drop_eq_nil_of_le (by omega)
  simp [this]

/-- C110 fails for the question whether there is more to read: the answer is always no. -/
theorem C110_fails_more (c : Bytes) (p : Nat) : toBool (reader c p) = false := by simp [toBool, reader]

/-- C110 fails after an exception: if `n` bytes are asked for and there are only `m`, these cannot be read afterwards, as they can from memory. -/
theorem C110_fails_retry (c : Bytes) (p m n : Nat) (hm : 0 < m) (hc : c.length = p + m) (hn : m < n) :
    (unpackraw n (reader c p)).1 = none ∧ (unpackraw m (unpackraw n (reader c p)).2).1 = none ∧
      ∀ b, Twin c p b → n < 2 ^ 63 → Buf.unpackraw n b = (.throw .eof, b) ∧ (Buf.unpackraw m b).1 = .ok (c.drop p) := by
  have h1 := file_fail (c := c) (p := p) (n := n) (by omega) (by omega)
  rw [h1]
  refine ⟨rfl, ?_, ?_⟩
  · have h2 : m ≠ 0 := by omega
    have h3 : ¬ c.length + m ≤ c.length := by omega
    simp [unpackraw, h2, fread, h3]
  · intro b hb hs
    refine ⟨mem_fail hb hs (by omega), ?_⟩
    rw [mem_ok hb (by omega), List.take_of_length_le (by simp; omega)]

/-- C110 fails for `reseti`: what was written before is replaced only as far as the new data go. -/
theorem C110_fails_reseti (xs ys : Bytes) (hx : xs ≠ []) (hy : ys ≠ []) :
    (packraw ys (reseti (packraw xs openW).2)).2.fs.data = ys ++ xs.drop ys.length := by
  simp [packraw, reseti, openW, fseek0, fwrite, hx, hy]

/-- C110 fails for `reseto`: it is meant for reading, but moves the place where data are written. -/
theorem C110_fails_reseto (xs ys : Bytes) (hx : xs ≠ []) (hy : ys ≠ []) :
    (packraw ys (reseto (packraw xs openW).2)).2.fs.data = ys ++ xs.drop ys.length := by
  simp [packraw, reseto, openW, fseek0, fwrite, hx, hy]

/-- C110 fails for `size`: only numbers are counted. -/
theorem C110_fails_size (ws : List W) (h : Real ws) : ∃ p, writeAll ws openW = (some (), p) ∧
    p.size = (ws.map fun | .num xs => xs.length | .raw _ => 0).sum := by
  have key : ∀ (ws : List W), Real ws → ∀ (d : Bytes) (sz ps : Nat), ∃ p, writeAll ws ⟨⟨d, d.length⟩, true, sz, ps⟩ = (some (), p) ∧
      p.size = sz + (ws.map fun | .num xs => xs.length | .raw _ => 0).sum := by
    intro ws
    induction ws with
    | nil => intro _ d sz ps; exact ⟨_, rfl, by simp⟩
    | cons w ws ih =>
      intro h d sz ps
      have ih := ih fun xs hx => h xs (.tail _ hx)
      cases w with
      | num xs =>
        have hx := h xs (.head _)
        obtain ⟨p, e, hp⟩ := ih (d ++ xs) (sz + xs.length) ps
        refine ⟨p, ?_, by simp [hp]; omega⟩
        simp only [writeAll, append, write_end xs d hx]
        simpa using e
      | raw xs =>
        by_cases hx : xs = []
        · subst hx
          obtain ⟨p, e, hp⟩ := ih d sz ps
          exact ⟨p, by simpa [writeAll, packraw] using e, by simp [hp]⟩
        · obtain ⟨p, e, hp⟩ := ih (d ++ xs) sz ps
          refine ⟨p, ?_, by simp [hp]⟩
          simp only [writeAll, packraw, if_neg hx, write_end xs d hx]
          simpa using e
  obtain ⟨p, e, hp⟩ := key ws h [] 0 0
  exact ⟨p, e, by simpa using hp⟩

/-- C110 fails for the test that keeps a wrong count from being allocated (C41): with a file it refuses nothing up to 2^63 bytes. -/
theorem C110_fails_check (c : Bytes) (p w sz : Nat) (hp : 0 < p) (hc : p < 2 ^ 63) (hs : sz * w ≤ 2 ^ 63) :
    refuses (reader c p).size (reader c p).pos w sz = false := by
  have h1 : (0 + (W64 - p)) % W64 = W64 - p := by rw [Nat.zero_add]; exact Nat.mod_eq_of_lt (by omega)
  have h2 : sz * w % W64 = sz * w := Nat.mod_eq_of_lt (by omega)
  simp only [refuses, reader, h1, h2]
  simp
  omega

/-- C110: in memory the test refuses exactly the counts for which there are not enough bytes. -/
theorem C110_check_partial (size pos w sz : Nat) (hp : pos ≤ size) (hs : size < W64) (hw : sz * w < W64) :
    refuses size pos w sz = true ↔ size < pos + sz * w := by
  have h1 : (size + (W64 - pos)) % W64 = size - pos := by
    rw [show size + (W64 - pos) = (size - pos) + W64 by omega, Nat.add_mod_right]
    exact Nat.mod_eq_of_lt (by omega)
  rw [refuses, h1, Nat.mod_eq_of_lt hw]
  simp
  omega

/-- C110: after `reseti` the numbers are counted from the start. -/
theorem C110_reseti_size_partial (ws : List W) (h : Real ws) (xs : Bytes) (hx : xs ≠ []) : ∃ p, writeAll ws openW = (some (), p) ∧
    (append xs (reseti p)).1 = some () ∧ (append xs (reseti p)).2.size = xs.length := by
  obtain ⟨sz, e⟩ := writes ws h [] 0 0
  exact ⟨_, e, by simp [append, reseti, fseek0, fwrite, hx]⟩

/-- C109: a write of no bytes with `append` is refused, in both kinds of file, and nothing is changed; `packraw` allows it. -/
theorem C109_empty (p : PF) : append [] p = (none, p) ∧ packraw [] p = (some (), p) := by
  obtain ⟨fs, w, sz, ps⟩ := p
  cases w <;> simp [append, packraw, fwrite]

/-- C109: a file that is read is not written to: the first write throws, and that is the end of it. -/
theorem C109_readonly (c : Bytes) (p : Nat) (w : W) (ws : List W) (h : w.bytes ≠ []) :
    writeAll (w :: ws) (reader c p) = (none, reader c p) := by
  cases w with
  | num xs => simp [writeAll, append, reader]
  | raw xs =>
    have h : xs ≠ [] := h
    simp [writeAll, packraw, reader, h]

/-! ### Cases -/

example : Real [.num [1, 0], .raw [], .raw [7, 8]] := by simp [C109.Real]

example : ∀ p, writeAll [.num [1, 0], .raw [], .raw [7, 8]] openW = (some (), p) → p.fs.data = [1, 0, 7, 8] ∧ p.size = 2 := by
  intro p h
  have : writeAll [.num [1, 0], .raw [], .raw [7, 8]] openW = (some (), ⟨⟨[1, 0, 7, 8], 4⟩, true, 2, 0⟩) := by decide
  rw [this] at h
  cases h
  decide

/-- A length and then so many bytes. -/
private def lengthPrefixed : Client Bytes := .num 1 fun xs => .raw (xs.headD 0).toNat .done

example : Small lengthPrefixed :=
  ⟨by decide, by decide, fun xs => ⟨Nat.lt_of_lt_of_le (UInt8.toNat_lt _) (by decide), fun _ => trivial⟩⟩

example : lengthPrefixed.file (openR [2, 7, 8, 9]) = (some [7, 8], C109.reader [2, 7, 8, 9] 3) := by decide

example : (lengthPrefixed.file (openR [5, 7, 8, 9])).1 = none := by decide

example : Twin [1, 2, 3] 1 ⟨some [1, 2, 3], 3, 1⟩ := ⟨⟨by decide, by decide, by decide⟩, by decide, rfl, by decide, by decide⟩

example : (packraw [9] (reseti (packraw [1, 2, 3] openW).2)).2.fs.data = [9, 2, 3] := by decide

end Verif.File
