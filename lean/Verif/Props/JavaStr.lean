import Verif.JavaStr
/-
C126: strings passed between C++ and Java.
-/
namespace Verif.JavaStr

/-! ### Specification -/

/-- A text as Java has it. -/
def C126.utf16 (t : List Char) : List Nat :=
  t.flatMap fun c => if c.toNat < 0x10000 then [c.toNat] else [0xd800 + (c.toNat - 0x10000) / 0x400, 0xdc00 + (c.toNat - 0x10000) % 0x400]

/-- A text as C++ has it. -/
def C126.utf8 (t : List Char) : List UInt8 := t.flatMap String.utf8EncodeChar

open C126

/-! ### Lemmas -/

private theorem u8_ne {n : Nat} (h : 0 < n) (h2 : n < 256) : UInt8.ofNat n ≠ 0 := by
  intro e
  have := congrArg UInt8.toNat e
  simp at this
  omega

private theorem unit8_nz {c : Nat} (h : c < 65536) : ∀ b ∈ unit8 c, b ≠ 0 := by
  intro b hb
  unfold unit8 at hb
  split at hb
  · simp at hb; rcases hb with rfl | rfl <;> decide
  · split at hb
    · simp at hb; subst hb; exact u8_ne (by omega) (by omega)
    · split at hb
      · simp only [List.mem_cons, List.not_mem_nil, or_false] at hb
        rcases hb with rfl | rfl
        · exact u8_ne (by omega) (by omega)
        · exact u8_ne (by omega) (by omega)
      · simp only [List.mem_cons, List.not_mem_nil, or_false] at hb
        rcases hb with rfl | rfl | rfl
        · exact u8_ne (by omega) (by omega)
        · exact u8_ne (by omega) (by omega)
        · exact u8_ne (by omega) (by omega)

private theorem cstr_id {s : List UInt8} (h : ∀ b ∈ s, b ≠ 0) : cstr s = s := by
  induction s with
  | nil => rfl
  | cons b s ih =>
    have hb := h b (by simp)
    simp only [cstr, List.takeWhile_cons, show (b != 0) = true by simpa using hb, if_true]
    rw [show s.takeWhile (· != 0) = s from ih fun x hx => h x (by simp [hx])]

private theorem toCpp_eq {s : List Nat} (h : ∀ c ∈ s, c < 65536) : toCpp s = s.flatMap unit8 := by
  refine cstr_id ?_
  intro b hb
  obtain ⟨c, hc, hb⟩ := List.mem_flatMap.1 hb
  exact unit8_nz (h c hc) b hb

private theorem widen_lt (sgn : Bool) (b : UInt8) : widen sgn b < 65536 := by
  unfold widen
  have := b.toNat_lt
  split <;> omega

private theorem widen_small {sgn : Bool} {b : UInt8} (h : b.toNat < 128) : widen sgn b = b.toNat := by
  unfold widen
  have : ¬ (sgn && decide (128 ≤ b.toNat)) = true := by simp; omega
  rw [if_neg this]

private theorem widen_big {sgn : Bool} {b : UInt8} (h : 128 ≤ b.toNat) : 128 ≤ widen sgn b := by
  unfold widen
  split <;> omega

private theorem unit8_len (c : Nat) : 1 ≤ (unit8 c).length ∧ ((0 < c ∧ c < 128) ∨ 2 ≤ (unit8 c).length) := by
  unfold unit8
  split
  · simp
  · split
    · refine ⟨by simp, .inl ⟨by omega, by omega⟩⟩
    · split <;> simp

private theorem flat_len : ∀ (s : List Nat), s.length ≤ (s.flatMap unit8).length ∧
    ((∃ c ∈ s, ¬ (0 < c ∧ c < 128)) → s.length < (s.flatMap unit8).length)
  | [] => by simp
  | c :: s => by
    have ih := flat_len s
    have h1 := unit8_len c
    simp only [List.flatMap_cons, List.length_append, List.length_cons]
    refine ⟨by omega, ?_⟩
    rintro ⟨x, hx, hn⟩
    rcases List.mem_cons.1 hx with rfl | hx
    · rcases h1.2 with h | h
      · exact absurd h hn
      · omega
    · have := ih.2 ⟨x, hx, hn⟩; omega

private theorem cstr_len (s : List UInt8) : (cstr s).length ≤ s.length := by
  have := (List.takeWhile_sublist (p := (· != (0 : UInt8))) (l := s)).length_le
  exact this

private theorem cstr_nz {s : List UInt8} : ∀ b ∈ cstr s, b ≠ 0 := by
  induction s with
  | nil => simp [cstr]
  | cons a s ih =>
    intro b hb
    simp only [cstr, List.takeWhile_cons] at hb
    split at hb
    · rename_i h
      rcases List.mem_cons.1 hb with rfl | hb
      · simpa using h
      · exact ih b hb
    · simp at hb

private theorem unit8_small {c : Nat} (h1 : 0 < c) (h2 : c < 128) : unit8 c = [UInt8.ofNat c] := by
  unfold unit8
  rw [if_neg (by omega), if_pos (by omega)]

private theorem flat_small : ∀ {s : List Nat}, (∀ c ∈ s, 0 < c ∧ c < 128) → s.flatMap unit8 = s.map UInt8.ofNat
  | [], _ => rfl
  | c :: s, h => by
    rw [List.flatMap_cons, unit8_small (h c (by simp)).1 (h c (by simp)).2, flat_small fun x hx => h x (by simp [hx])]
    rfl

private theorem nz_pos {b : UInt8} (h : b ≠ 0) : 0 < b.toNat := by
  rcases Nat.eq_zero_or_pos b.toNat with h0 | h0
  · exact absurd (UInt8.toNat_inj.1 (by simpa using h0)) h
  · exact h0

/-! ### C126 -/

/-- A C++ string given to Java and taken back is the same exactly if it is of ASCII characters other than NUL. -/
theorem C126_cpp_exact (sgn : Bool) (s : List UInt8) : toCpp (toJava sgn s) = s ↔ ∀ b ∈ s, 0 < b.toNat ∧ b.toNat < 128 := by
  have hlt : ∀ c ∈ toJava sgn s, c < 65536 := by
    intro c hc
    obtain ⟨b, _, rfl⟩ := List.mem_map.1 hc
    exact widen_lt _ _
  rw [toCpp_eq hlt]
  constructor
  · intro h b hb
    have hnz : b ≠ 0 := by
      rw [← h] at hb
      obtain ⟨c, hc, hb⟩ := List.mem_flatMap.1 hb
      exact unit8_nz (hlt c hc) b hb
    refine ⟨nz_pos hnz, ?_⟩
    apply Classical.byContradiction
    intro hb128
    have hall : ∀ x ∈ s, x ≠ 0 := by
      intro x hx
      rw [← h] at hx
      obtain ⟨c, hc, hx⟩ := List.mem_flatMap.1 hx
      exact unit8_nz (hlt c hc) x hx
    have hl := (flat_len (toJava sgn s)).2 ⟨widen sgn b, by
      unfold toJava; rw [cstr_id hall]; exact List.mem_map.2 ⟨b, hb, rfl⟩, by
      have := widen_big (sgn := sgn) (Nat.le_of_not_lt hb128); omega⟩
    rw [h] at hl
    unfold toJava at hl
    rw [cstr_id hall] at hl
    simp at hl
  · intro h
    have hall : ∀ x ∈ s, x ≠ 0 := by
      rintro x hx rfl
      exact absurd (h 0 hx).1 (by decide)
    have he : toJava sgn s = s.map UInt8.toNat := by
      unfold toJava
      rw [cstr_id hall]
      exact List.map_congr_left fun b hb => widen_small (h b hb).2
    rw [he, flat_small (by
      intro c hc
      obtain ⟨b, hb, rfl⟩ := List.mem_map.1 hc
      exact h b hb)]
    rw [List.map_map]
    conv => rhs; rw [← List.map_id s]
    exact List.map_congr_left fun b _ => by simp

/-- A Java string given to C++ and taken back is the same exactly if it is of ASCII characters other than NUL. -/
theorem C126_java_exact (sgn : Bool) (s : List Nat) (hs : ∀ c ∈ s, c < 65536) :
    toJava sgn (toCpp s) = s ↔ ∀ c ∈ s, 0 < c ∧ c < 128 := by
  have hnz : ∀ b ∈ s.flatMap unit8, b ≠ 0 := by
    intro b hb
    obtain ⟨c, hc, hb⟩ := List.mem_flatMap.1 hb
    exact unit8_nz (hs c hc) b hb
  rw [toCpp_eq hs]
  unfold toJava
  rw [cstr_id hnz]
  constructor
  · intro h c hc
    apply Classical.byContradiction
    intro hn
    have h1 := (flat_len s).2 ⟨c, hc, hn⟩
    have h2 := congrArg List.length h
    rw [List.length_map] at h2
    omega
  · intro h
    rw [flat_small h, List.map_map]
    conv => rhs; rw [← List.map_id s]
    refine List.map_congr_left fun c hc => ?_
    have := h c hc
    simp only [Function.comp, id]
    rw [widen_small (by rw [UInt8.toNat_ofNat']; omega), UInt8.toNat_ofNat']
    omega

/-- C126, partial: texts of the basic multilingual plane without NUL arrive in C++ as UTF-8. -/
theorem C126_received_partial (t : List Char) (h : ∀ c ∈ t, 0 < c.toNat ∧ c.toNat < 0x10000) : toCpp (utf16 t) = utf8 t := by
  have e : utf16 t = t.map Char.toNat := by
    unfold utf16
    induction t with
    | nil => rfl
    | cons c t ih =>
      rw [List.flatMap_cons, if_pos (h c (by simp)).2, ih fun x hx => h x (by simp [hx])]
      rfl
  rw [e, toCpp_eq (by
    intro c hc
    obtain ⟨x, hx, rfl⟩ := List.mem_map.1 hc
    exact (h x hx).2)]
  unfold utf8
  rw [List.flatMap_map]
  clear e
  induction t with
  | nil => rfl
  | cons c t ih =>
    rw [List.flatMap_cons, List.flatMap_cons, ih fun x hx => h x (by simp [hx])]
    congr 1
    obtain ⟨h1, h2⟩ := h c (by simp)
    have hv : c.val.toNat = c.toNat := rfl
    unfold unit8 String.utf8EncodeChar
    rw [if_neg (by omega)]
    simp only [hv]
    generalize c.toNat = n at h1 h2
    by_cases a : n < 128
    · rw [if_pos a, if_pos (by omega)]
    · rw [if_neg a, if_neg (show ¬ n ≤ 127 by omega)]
      by_cases b : n < 2048
      · rw [if_pos b, if_pos (by omega), show n / 64 % 32 + 192 = 192 + n / 64 by omega, show n % 64 + 128 = 128 + n % 64 by omega]
      · rw [if_neg b, if_neg (show ¬ n ≤ 2047 by omega), if_pos (by omega), show n / 4096 % 16 + 224 = 224 + n / 4096 by omega,
          show n / 64 % 64 + 128 = 128 + n / 64 % 64 by omega, show n % 64 + 128 = 128 + n % 64 by omega]

example : toCpp (utf16 "Größe €".toList) = utf8 "Größe €".toList := C126_received_partial _ (by decide)

example (sgn : Bool) : toCpp (toJava sgn (utf8 "plain".toList)) = utf8 "plain".toList :=
  (C126_cpp_exact sgn _).2 (by decide)

example (sgn : Bool) : toCpp (toJava sgn (utf8 "für".toList)) ≠ utf8 "für".toList :=
  fun h => absurd ((C126_cpp_exact sgn _).1 h) (by decide)

example (sgn : Bool) : toJava sgn (toCpp (utf16 "für".toList)) ≠ utf16 "für".toList :=
  fun h => absurd ((C126_java_exact sgn _ (by decide)).1 h) (by decide)

/-- C126 fails for a character outside of the basic multilingual plane: C++ gets six bytes for it, not the four of UTF-8. -/
theorem C126_fails_astral (c : Char) (h : 0x10000 ≤ c.toNat) : toCpp (utf16 [c]) ≠ utf8 [c] := by
  have hv : c.toNat < 0x110000 := by
    rcases c.valid with h | h
    · have : c.toNat < 55296 := h
      omega
    · exact h.2
  have e : utf16 [c] = [0xd800 + (c.toNat - 0x10000) / 0x400, 0xdc00 + (c.toNat - 0x10000) % 0x400] := by
    simp only [utf16, List.flatMap_cons, List.flatMap_nil, if_neg (Nat.not_lt.2 h), List.append_nil]
  intro he
  rw [e, toCpp_eq (by intro x hx; simp at hx; omega)] at he
  have := congrArg List.length he
  simp only [List.flatMap_cons, List.flatMap_nil, List.append_nil, List.length_append, utf8] at this
  have l1 : ∀ x, 0x800 ≤ x → (unit8 x).length = 3 := by
    intro x hx
    unfold unit8
    rw [if_neg (by omega), if_neg (by omega), if_neg (by omega)]
    rfl
  rw [l1 _ (by omega), l1 _ (by omega)] at this
  have hl : (String.utf8EncodeChar c).length ≤ 4 := by
    unfold String.utf8EncodeChar
    simp only
    split
    · simp
    · split
      · simp
      · split <;> simp
  omega

example : toCpp (utf16 ['😀']) ≠ utf8 ['😀'] := C126_fails_astral _ (by decide)

private theorem enc_len (c : Char) : (if c.toNat < 0x10000 then 1 else 2) ≤ (String.utf8EncodeChar c).length ∧
    (128 ≤ c.toNat → (if c.toNat < 0x10000 then 1 else 2) < (String.utf8EncodeChar c).length) := by
  have hv : c.val.toNat = c.toNat := rfl
  unfold String.utf8EncodeChar
  simp only [hv]
  split
  · split
    · simp; omega
    · split
      · simp
      · split <;> simp
  · rw [if_neg (by omega), if_neg (by omega), if_neg (by omega)]
    simp

private theorem utf_len : ∀ (t : List Char), (utf16 t).length ≤ (utf8 t).length ∧
    ((∃ c ∈ t, 128 ≤ c.toNat) → (utf16 t).length < (utf8 t).length)
  | [] => by simp [utf16, utf8]
  | c :: t => by
    have ih := utf_len t
    have h1 := enc_len c
    have e : (utf16 (c :: t)).length = (if c.toNat < 0x10000 then 1 else 2) + (utf16 t).length := by
      unfold utf16
      rw [List.flatMap_cons, List.length_append]
      congr 1
      split <;> rfl
    have e2 : (utf8 (c :: t)).length = (String.utf8EncodeChar c).length + (utf8 t).length := by
      unfold utf8
      rw [List.flatMap_cons, List.length_append]
    rw [e, e2]
    refine ⟨by omega, ?_⟩
    rintro ⟨x, hx, h⟩
    rcases List.mem_cons.1 hx with rfl | hx
    · have := h1.2 h; omega
    · have := ih.2 ⟨x, hx, h⟩; omega

private theorem enc_nz {c : Char} (h : 0 < c.toNat) : ∀ b ∈ String.utf8EncodeChar c, b ≠ 0 := by
  have hv : c.val.toNat = c.toNat := rfl
  intro b hb
  unfold String.utf8EncodeChar at hb
  simp only [hv] at hb
  split at hb
  · simp only [List.mem_cons, List.not_mem_nil, or_false] at hb
    subst hb; exact u8_ne h (by omega)
  · split at hb
    · simp only [List.mem_cons, List.not_mem_nil, or_false] at hb
      rcases hb with rfl | rfl <;> exact u8_ne (by omega) (by omega)
    · split at hb
      · simp only [List.mem_cons, List.not_mem_nil, or_false] at hb
        rcases hb with rfl | rfl | rfl <;> exact u8_ne (by omega) (by omega)
      · simp only [List.mem_cons, List.not_mem_nil, or_false] at hb
        rcases hb with rfl | rfl | rfl | rfl <;> exact u8_ne (by omega) (by omega)

/-- A text without NUL that C++ has as UTF-8 arrives in Java as that text exactly if it is ASCII. -/
theorem C126_sent_exact (sgn : Bool) (t : List Char) (h : ∀ c ∈ t, 0 < c.toNat) :
    toJava sgn (utf8 t) = utf16 t ↔ ∀ c ∈ t, c.toNat < 128 := by
  have hnz : ∀ b ∈ utf8 t, b ≠ 0 := by
    intro b hb
    obtain ⟨c, hc, hb⟩ := List.mem_flatMap.1 hb
    exact enc_nz (h c hc) b hb
  unfold toJava
  rw [cstr_id hnz]
  constructor
  · intro he c hc
    apply Classical.byContradiction
    intro hn
    have h1 := (utf_len t).2 ⟨c, hc, by omega⟩
    have h2 := congrArg List.length he
    rw [List.length_map] at h2
    omega
  · intro ha
    clear hnz
    induction t with
    | nil => rfl
    | cons c t ih =>
      have hc := ha c (by simp)
      have e1 : String.utf8EncodeChar c = [UInt8.ofNat c.toNat] := by
        unfold String.utf8EncodeChar
        have hv : c.val.toNat = c.toNat := rfl
        simp only [hv]
        rw [if_pos (by omega)]
      have ih := ih (fun x hx => h x (by simp [hx])) fun x hx => ha x (by simp [hx])
      unfold utf8 utf16 at ih ⊢
      rw [List.flatMap_cons, List.flatMap_cons, e1, List.map_append, ih, if_pos (by omega)]
      congr 1
      simp only [List.map_cons, List.map_nil]
      rw [widen_small (by rw [UInt8.toNat_ofNat']; omega), UInt8.toNat_ofNat']
      congr 1; omega

example (sgn : Bool) : toJava sgn (utf8 "x = 3".toList) = utf16 "x = 3".toList := (C126_sent_exact sgn _ (by decide)).2 (by decide)

/-- The name of the C++ object is the one kept, whatever its characters. -/
theorem C126_name (sgn : Bool) (s : List UInt8) : getName (setName sgn s) = s := by
  unfold getName setName
  rw [List.map_map]
  conv => rhs; rw [← List.map_id s]
  refine List.map_congr_left fun b _ => ?_
  apply UInt8.toNat_inj.1
  simp only [Function.comp, id, UInt8.toNat_ofNat', widen]
  have := b.toNat_lt
  split
  · rename_i h
    simp at h
    omega
  · omega

example : getName (setName true (utf8 "0x55d0c8".toList)) = utf8 "0x55d0c8".toList := C126_name true _

end Verif.JavaStr
