import Verif.Props.XmlMore
import Verif.XmlEx
/-
C25, C27: character references written by others, and the spellings of booleans.
-/
namespace Verif.Xml
open OMap EnumKeys
open Verif.Json (JV)
open Verif.Xml.XmlP (b)

/-! ### Specification: numerals -/

/-- A digit and whether it is written with a capital letter. -/
structure Dig where
  val : Nat
  cap : Bool

def Dig.char (d : Dig) : UInt8 := UInt8.ofNat (if d.val < 10 then 48 + d.val else if d.cap then 55 + d.val else 87 + d.val)

/-- The number a list of digits stands for. -/
def numeral (base : Nat) (ds : List Dig) : Nat := ds.foldl (fun a d => base * a + d.val) 0

private theorem hexdig : ∀ (v : Fin 16) (u : Bool), let c := (Dig.mk v.val u).char
    hexVal c = some v.val ∧ c ≠ 0 ∧ c ≠ 59 ∧ c ≠ 45 ∧ c ≠ 43 ∧ c ≠ 120 ∧ c ≠ 88 ∧ isSpace c = false := by decide +kernel

private theorem decdig : ∀ (v : Fin 10) (u : Bool), let c := (Dig.mk v.val u).char
    isDigit c = true ∧ c.toNat - 48 = v.val ∧ c ≠ 0 ∧ c ≠ 59 ∧ c ≠ 45 ∧ c ≠ 43 ∧ c ≠ 120 ∧ isSpace c = false := by decide +kernel

private theorem signed_none (s : Str) (h : ∀ c ∈ s, c ≠ 45 ∧ c ≠ 43 ∧ isSpace c = false) : signed s = (false, s) := by
  cases s with
  | nil => rfl
  | cons c r =>
    have hc := h c (by simp)
    unfold signed
    rw [List.dropWhile_cons, hc.2.2]
    simp only [Bool.false_eq_true, if_false]
    split
    · rename_i e; simp at e; exact absurd e.1 hc.1
    · rename_i e; simp at e; exact absurd e.1 hc.2.1
    · rfl

private theorem takeWhile_eq_self {p : UInt8 → Bool} : ∀ s : Str, (∀ c ∈ s, p c = true) → s.takeWhile p = s
  | [], _ => rfl
  | c :: r, h => by
    rw [List.takeWhile_cons, h c (by simp), if_pos rfl, takeWhile_eq_self r fun c hc => h c (by simp [hc])]

private theorem run_refname (sgn : Bool) (tok name w x : Str) (h : ∀ c ∈ w, c ≠ 59) :
    run sgn (.ent tok name) (w ++ x) = run sgn (.ent tok (name ++ w)) x := by
  induction w generalizing name with
  | nil => simp
  | cons c r ih =>
    have := ih (name ++ [c]) fun c hc => h c (by simp [hc])
    rw [List.cons_append, run, step, if_neg (h c (by simp))]
    simp only [List.nil_append, this, List.append_assoc, List.singleton_append]

private theorem run_ref (sgn : Bool) (tok name x : Str) (c : UInt8) (h : ∀ c ∈ name, c ≠ 59) (he : entity sgn name = some c) :
    run sgn (.text tok) (38 :: (name ++ 59 :: x)) = run sgn (.text (tok ++ [c])) x := by
  have h1 : run sgn (.text tok) (38 :: (name ++ 59 :: x)) = run sgn (.ent tok []) (name ++ 59 :: x) := by
    rw [run, step, stepText]
    have e1 : isSpace 38 = false := by decide
    simp [e1]
  rw [h1, run_refname sgn tok [] name _ h, List.nil_append, run, step, if_pos rfl, he]
  simp

private theorem strtol16_numeral (ds : List Dig) (h : ∀ d ∈ ds, d.val < 16) :
    strtol16 (ds.map Dig.char) = (numeral 16 ds : Nat) := by
  have hc : ∀ c ∈ ds.map Dig.char, c ≠ 45 ∧ c ≠ 43 ∧ c ≠ 120 ∧ c ≠ 88 ∧ (hexVal c).isSome = true ∧ isSpace c = false := by
    intro c hc
    obtain ⟨d, hd, rfl⟩ := List.mem_map.1 hc
    have := hexdig ⟨d.val, h d hd⟩ d.cap
    simp only at this
    obtain ⟨h1, h2, h3, h4, h5, h6, h7, h8⟩ := this
    exact ⟨h4, h5, h6, h7, by rw [h1]; rfl, h8⟩
  have e1 := signed_none _ fun c hm => ⟨(hc c hm).1, (hc c hm).2.1, (hc c hm).2.2.2.2.2⟩
  have e2 : drop0x (ds.map Dig.char) = ds.map Dig.char := by
    unfold drop0x
    split
    · rename_i x c r e
      have := hc x (by rw [e]; simp)
      rw [if_neg]
      simp [this.2.2.1, this.2.2.2.1]
    · rfl
  have e3 : ∀ (ds : List Dig) (a : Nat), (∀ d ∈ ds, d.val < 16) →
      (ds.map Dig.char).foldl (fun a c => 16 * a + (hexVal c).getD 0) a = ds.foldl (fun a d => 16 * a + d.val) a := by
    intro ds
    induction ds with
    | nil => intros; rfl
    | cons d ds ih =>
      intro a h
      have := (hexdig ⟨d.val, h d (by simp)⟩ d.cap).1
      simp only at this
      simp only [List.map_cons, List.foldl_cons]
      have e : hexVal d.char = some d.val := this
      rw [e, ih _ fun d hd => h d (by simp [hd])]
      rfl
  unfold strtol16 valH
  rw [e1]
  simp only [Bool.false_eq_true, if_false]
  rw [e2, takeWhile_eq_self _ fun c hm => (hc c hm).2.2.2.2.1, e3 _ _ h]
  rfl

private theorem strtol10_numeral (ds : List Dig) (h : ∀ d ∈ ds, d.val < 10) :
    strtol10 (ds.map Dig.char) = (numeral 10 ds : Nat) := by
  have hc : ∀ c ∈ ds.map Dig.char, c ≠ 45 ∧ c ≠ 43 ∧ isDigit c = true ∧ isSpace c = false := by
    intro c hc
    obtain ⟨d, hd, rfl⟩ := List.mem_map.1 hc
    have := decdig ⟨d.val, h d hd⟩ d.cap
    simp only at this
    obtain ⟨h1, h2, h3, h4, h5, h6, h7, h8⟩ := this
    exact ⟨h5, h6, h1, h8⟩
  have e1 := signed_none _ fun c hm => ⟨(hc c hm).1, (hc c hm).2.1, (hc c hm).2.2.2⟩
  have e3 : ∀ (ds : List Dig) (a : Nat), (∀ d ∈ ds, d.val < 10) →
      (ds.map Dig.char).foldl (fun a c => 10 * a + (c.toNat - 48)) a = ds.foldl (fun a d => 10 * a + d.val) a := by
    intro ds
    induction ds with
    | nil => intros; rfl
    | cons d ds ih =>
      intro a h
      have := (decdig ⟨d.val, h d (by simp)⟩ d.cap).2.1
      simp only at this
      simp only [List.map_cons, List.foldl_cons]
      have e : d.char.toNat - 48 = d.val := this
      rw [e, ih _ fun d hd => h d (by simp [hd])]
  unfold strtol10 valD
  rw [e1]
  simp only [Bool.false_eq_true, if_false]
  rw [takeWhile_eq_self _ fun c hm => (hc c hm).2.2.1, e3 _ _ h]
  rfl

private theorem in_char {sgn : Bool} {n : Nat} (h : n < if sgn then 128 else 256) :
    inChar sgn (n : Int) = true ∧ ((n : Int) % 256).toNat = n := by
  cases sgn <;> simp [inChar] at * <;> omega

/-- C25: a hexadecimal character reference, with small or capital letters and any number of leading zeros,
is the character with that code.  (Codes of a `char`: below 128 if it is signed, else below 256.) -/
theorem C25_hexadecimal (sgn : Bool) (ds : List Dig) (h : ∀ d ∈ ds, d.val < 16)
    (hn : numeral 16 ds < if sgn then 128 else 256) (tok x : Str) :
    run sgn (.text tok) (38 :: 35 :: 120 :: (ds.map Dig.char ++ 59 :: x)) =
      run sgn (.text (tok ++ [UInt8.ofNat (numeral 16 ds)])) x := by
  have hc : ∀ c ∈ ds.map Dig.char, c ≠ 0 ∧ c ≠ 59 := by
    intro c hc
    obtain ⟨d, hd, rfl⟩ := List.mem_map.1 hc
    have := hexdig ⟨d.val, h d hd⟩ d.cap
    exact ⟨this.2.1, this.2.2.1⟩
  have := run_ref sgn tok (35 :: 120 :: ds.map Dig.char) x (UInt8.ofNat (numeral 16 ds))
    (by intro c hm; simp only [List.mem_cons] at hm; rcases hm with rfl | rfl | hm
        · decide
        · decide
        · exact (hc c hm).2) ?_
  · simpa using this
  · have ht : (35 :: 120 :: ds.map Dig.char).takeWhile (· != 0) = 35 :: 120 :: ds.map Dig.char := by
      apply takeWhile_eq_self
      intro c hm; simp only [List.mem_cons] at hm
      rcases hm with rfl | rfl | hm
      · decide
      · decide
      · simpa using (hc c hm).1
    unfold entity
    rw [if_neg (by simp), if_neg (by simp), if_neg (by simp), if_neg (by simp), if_neg (by simp), ht]
    simp only [strtol16_numeral ds h, (in_char hn).1, (in_char hn).2, if_true]

/-- C25: the same for decimal character references. -/
theorem C25_decimal (sgn : Bool) (ds : List Dig) (h : ∀ d ∈ ds, d.val < 10)
    (hn : numeral 10 ds < if sgn then 128 else 256) (tok x : Str) :
    run sgn (.text tok) (38 :: 35 :: (ds.map Dig.char ++ 59 :: x)) =
      run sgn (.text (tok ++ [UInt8.ofNat (numeral 10 ds)])) x := by
  have hc : ∀ c ∈ ds.map Dig.char, c ≠ 0 ∧ c ≠ 59 ∧ c ≠ 120 := by
    intro c hc
    obtain ⟨d, hd, rfl⟩ := List.mem_map.1 hc
    have := decdig ⟨d.val, h d hd⟩ d.cap
    exact ⟨this.2.2.1, this.2.2.2.1, this.2.2.2.2.2.2.1⟩
  have := run_ref sgn tok (35 :: ds.map Dig.char) x (UInt8.ofNat (numeral 10 ds))
    (by intro c hm; simp only [List.mem_cons] at hm; rcases hm with rfl | hm
        · decide
        · exact (hc c hm).2.1) ?_
  · simpa using this
  · have ht : (35 :: ds.map Dig.char).takeWhile (· != 0) = 35 :: ds.map Dig.char := by
      apply takeWhile_eq_self
      intro c hm; simp only [List.mem_cons] at hm
      rcases hm with rfl | hm
      · decide
      · simpa using (hc c hm).1
    unfold entity
    rw [if_neg (by simp), if_neg (by simp), if_neg (by simp), if_neg (by simp), if_neg (by simp), ht]
    split
    · rename_i e
      simp only [List.cons.injEq, true_and] at e
      exact absurd rfl (hc 120 (by rw [e]; simp)).2.2
    · rename_i e
      simp only [List.cons.injEq, true_and] at e
      subst e
      simp only [strtol10_numeral ds h, (in_char hn).1, (in_char hn).2, if_true]
    · rename_i h1 h2; exact absurd rfl (h2 _)

example : run true (.text []) (b "&#x0041;&#x6a;&#066;</") =
    ([b "AjB", b "</"], some (.text [])) := by decide +kernel

/-! ### References accepted that are none -/

/-- The hexadecimal digits. -/
def HexDigit (c : UInt8) : Prop := ∃ d : Dig, d.val < 16 ∧ d.char = c

private theorem nothex : ∀ x : Fin 256, hexVal (UInt8.ofNat x.val) = none ∨
    ∃ (v : Fin 16) (u : Bool), (Dig.mk v.val u).char = UInt8.ofNat x.val := by decide +kernel

private theorem hexVal_none {c : UInt8} (h : ¬ HexDigit c) : hexVal c = none := by
  have := nothex ⟨c.toNat, c.toNat_lt⟩
  simp only [UInt8.ofNat_toNat] at this
  rcases this with h1 | ⟨v, u, h1⟩
  · exact h1
  · exact absurd ⟨⟨v.val, u⟩, v.isLt, h1⟩ h

private theorem takeWhile_stop {p : UInt8 → Bool} {c : UInt8} (hc : p c = false) (t : Str) :
    ∀ s : Str, (∀ c ∈ s, p c = true) → (s ++ c :: t).takeWhile p = s
  | [], _ => by simp [hc]
  | d :: r, h => by
    rw [List.cons_append, List.takeWhile_cons, h d (by simp), if_pos rfl, takeWhile_stop hc t r fun c hc => h c (by simp [hc])]

private theorem foldl_hex : ∀ (ds : List Dig) (a : Nat), (∀ d ∈ ds, d.val < 16) →
    (ds.map Dig.char).foldl (fun a c => 16 * a + (hexVal c).getD 0) a = ds.foldl (fun a d => 16 * a + d.val) a
  | [], _, _ => rfl
  | d :: ds, a, h => by
    have e : hexVal d.char = some d.val := (hexdig ⟨d.val, h d (by simp)⟩ d.cap).1
    simp only [List.map_cons, List.foldl_cons]
    rw [e, foldl_hex ds _ fun d hd => h d (by simp [hd])]
    rfl

private theorem hexchars {ds : List Dig} (h : ∀ d ∈ ds, d.val < 16) : ∀ c ∈ ds.map Dig.char,
    c ≠ 0 ∧ c ≠ 59 ∧ c ≠ 45 ∧ c ≠ 43 ∧ c ≠ 120 ∧ c ≠ 88 ∧ (hexVal c).isSome = true ∧ isSpace c = false := by
  intro c hc
  obtain ⟨d, hd, rfl⟩ := List.mem_map.1 hc
  have := hexdig ⟨d.val, h d hd⟩ d.cap
  simp only at this
  obtain ⟨h1, h2, h3, h4, h5, h6, h7, h8⟩ := this
  exact ⟨h2, h3, h4, h5, h6, h7, by rw [h1]; rfl, h8⟩

private theorem strtol16_stop (ds : List Dig) (h : ∀ d ∈ ds, d.val < 16) (hne : ds ≠ []) (c : UInt8) (hc : ¬ HexDigit c)
    (hx : c ≠ 120 ∧ c ≠ 88) (r : Str) : strtol16 (ds.map Dig.char ++ c :: r) = (numeral 16 ds : Nat) := by
  obtain ⟨d, ds', rfl⟩ := List.exists_cons_of_ne_nil hne
  have hd := hexchars h
  have hd0 := hd d.char (by simp)
  have e1 : signed ((d :: ds').map Dig.char ++ c :: r) = (false, (d :: ds').map Dig.char ++ c :: r) := by
    unfold signed
    rw [List.map_cons, List.cons_append, List.dropWhile_cons, hd0.2.2.2.2.2.2.2]
    simp only [Bool.false_eq_true, if_false]
    split
    · rename_i e; simp at e; exact absurd e.1 hd0.2.2.1
    · rename_i e; simp at e; exact absurd e.1 hd0.2.2.2.1
    · rfl
  have e2 : drop0x ((d :: ds').map Dig.char ++ c :: r) = (d :: ds').map Dig.char ++ c :: r := by
    unfold drop0x
    split
    · rename_i x y t e
      have : x ≠ 120 ∧ x ≠ 88 := by
        cases ds' with
        | nil => simp at e; rw [← e.2.1]; exact hx
        | cons d' ds' =>
          simp at e
          have := hd d'.char (by simp)
          rw [← e.2.1]; exact ⟨this.2.2.2.2.1, this.2.2.2.2.2.1⟩
      rw [if_neg]
      simp [this.1, this.2]
    · rfl
  unfold strtol16
  rw [e1]
  simp only [Bool.false_eq_true, if_false]
  rw [e2, valH, takeWhile_stop (by simp [hexVal_none hc]) r _ fun c hm => (hd c hm).2.2.2.2.2.2.1, foldl_hex _ _ h]
  rfl

private theorem strtol16_0x (ds : List Dig) (h : ∀ d ∈ ds, d.val < 16) (hne : ds ≠ []) (x : UInt8) (hx : x = 120 ∨ x = 88) :
    strtol16 (48 :: x :: ds.map Dig.char) = (numeral 16 ds : Nat) := by
  obtain ⟨d, ds', rfl⟩ := List.exists_cons_of_ne_nil hne
  have hd := hexchars h
  have e1 : signed (48 :: x :: (d :: ds').map Dig.char) = (false, 48 :: x :: (d :: ds').map Dig.char) := by
    unfold signed
    rw [List.dropWhile_cons, show isSpace 48 = false by decide]
    rfl
  have e2 : drop0x (48 :: x :: (d :: ds').map Dig.char) = (d :: ds').map Dig.char := by
    unfold drop0x
    simp only [List.map_cons]
    rw [if_pos]
    rw [(hd d.char (by simp)).2.2.2.2.2.2.1]
    rcases hx with rfl | rfl <;> simp
  unfold strtol16
  rw [e1]
  simp only [Bool.false_eq_true, if_false]
  rw [e2, valH, takeWhile_eq_self _ fun c hm => (hd c hm).2.2.2.2.2.2.1, foldl_hex _ _ h]
  rfl

private theorem entity_hex (sgn : Bool) (w : Str) (n : Nat) (h0 : ∀ c ∈ w, c ≠ 0) (hn : n < if sgn then 128 else 256)
    (hw : strtol16 w = (n : Int)) : entity sgn (35 :: 120 :: w) = some (UInt8.ofNat n) := by
  have ht : (35 :: 120 :: w).takeWhile (· != 0) = 35 :: 120 :: w := by
    apply takeWhile_eq_self
    intro c hm; simp only [List.mem_cons] at hm
    rcases hm with rfl | rfl | hm
    · decide
    · decide
    · simpa using h0 c hm
  unfold entity
  rw [if_neg (by simp), if_neg (by simp), if_neg (by simp), if_neg (by simp), if_neg (by simp), ht]
  simp only [hw, (in_char hn).1, (in_char hn).2, if_true]

/-- C28 fails: whatever follows the digits of a hexadecimal character reference is passed over, up to the semicolon. -/
theorem C28_reference_fails (sgn : Bool) (ds : List Dig) (h : ∀ d ∈ ds, d.val < 16) (hne : ds ≠ [])
    (hn : numeral 16 ds < if sgn then 128 else 256) (c : UInt8) (junk : Str) (hc : ¬ HexDigit c) (hx : c ≠ 120 ∧ c ≠ 88)
    (hj : ∀ y ∈ c :: junk, y ≠ 0 ∧ y ≠ 59) (tok x : Str) :
    run sgn (.text tok) (38 :: 35 :: 120 :: (ds.map Dig.char ++ c :: junk ++ 59 :: x)) =
      run sgn (.text (tok ++ [UInt8.ofNat (numeral 16 ds)])) x := by
  have hd := hexchars h
  have hall : ∀ y ∈ ds.map Dig.char ++ c :: junk, y ≠ 0 ∧ y ≠ 59 := by
    intro y hy
    rcases List.mem_append.1 hy with hy | hy
    · exact ⟨(hd y hy).1, (hd y hy).2.1⟩
    · exact hj y hy
  have := run_ref sgn tok (35 :: 120 :: (ds.map Dig.char ++ c :: junk)) x (UInt8.ofNat (numeral 16 ds))
    (by intro y hm; simp only [List.mem_cons] at hm; rcases hm with rfl | rfl | hm
        · decide
        · decide
        · exact (hall y (by simpa using hm)).2)
    (entity_hex sgn _ _ (fun y hy => (hall y hy).1) hn (strtol16_stop ds h hne c hc hx junk))
  simpa using this

/-- And the digits may begin with `0x` or `0X`, as in C. -/
theorem C28_reference_0x_fails (sgn : Bool) (ds : List Dig) (h : ∀ d ∈ ds, d.val < 16) (hne : ds ≠ [])
    (hn : numeral 16 ds < if sgn then 128 else 256) (c : UInt8) (hc : c = 120 ∨ c = 88) (tok x : Str) :
    run sgn (.text tok) (38 :: 35 :: 120 :: 48 :: c :: (ds.map Dig.char ++ 59 :: x)) =
      run sgn (.text (tok ++ [UInt8.ofNat (numeral 16 ds)])) x := by
  have hd := hexchars h
  have hall : ∀ y ∈ 48 :: c :: ds.map Dig.char, y ≠ 0 ∧ y ≠ 59 := by
    intro y hy
    simp only [List.mem_cons] at hy
    rcases hy with rfl | rfl | hy
    · decide
    · rcases hc with rfl | rfl <;> decide
    · exact ⟨(hd y hy).1, (hd y hy).2.1⟩
  have := run_ref sgn tok (35 :: 120 :: 48 :: c :: ds.map Dig.char) x (UInt8.ofNat (numeral 16 ds))
    (by intro y hm; simp only [List.mem_cons] at hm; rcases hm with rfl | rfl | hm
        · decide
        · decide
        · exact (hall y (by simpa using hm)).2)
    (entity_hex sgn _ _ (fun y hy => (hall y hy).1) hn (strtol16_0x ds h hne c hc))
  simpa using this

/-- `&#x41G!;` and `&#x0X41;` are both read as A. -/
example : run true (.text []) (b "&#x41G!;&#x0X41;</") = ([b "AA", b "</"], some (.text [])) := by decide +kernel

example (tok x : Str) : run true (.text tok) (38 :: 35 :: 120 :: ([Dig.mk 4 false, Dig.mk 1 false].map Dig.char ++ 71 :: [33] ++ 59 :: x)) =
    run true (.text (tok ++ [65])) x :=
  C28_reference_fails true [⟨4, false⟩, ⟨1, false⟩] (by simp) (by simp) (by decide) 71 [33]
    (by rintro ⟨d, hd, he⟩
        have : ∀ (v : Fin 16) (u : Bool), (Dig.mk v.val u).char ≠ 71 := by decide +kernel
        exact this ⟨d.val, hd⟩ d.cap he) (by decide) (by decide) tok x

/-! ### Text that needs no quoting -/

/-- C25: letters, digits and punctuation other than the five special characters are written as they are. -/
theorem C25_plain (sgn : Bool) (s : Str) (h : ∀ c ∈ s, 33 ≤ c.toNat ∧ c.toNat ≤ 126 ∧ c ∉ b "&<>'\"") :
    quote sgn s = s := by
  induction s with
  | nil => rfl
  | cons c r ih =>
    have hc := h c (by simp)
    have e := ih fun c hc => h c (by simp [hc])
    unfold quote at e ⊢
    rw [List.map_cons, List.flatten_cons, e]
    have hg : isGraph c = true := by
      unfold isGraph
      simp only [Bool.and_eq_true, decide_eq_true_eq, UInt8.le_iff_toNat_le, UInt8.reduceToNat]
      exact ⟨hc.1, hc.2.1⟩
    have hm : c ≠ 38 ∧ c ≠ 60 ∧ c ≠ 62 ∧ c ≠ 39 ∧ c ≠ 34 := by
      have := hc.2.2
      rw [show b "&<>'\"" = [38, 60, 62, 39, 34] by decide] at this
      simpa using this
    rw [quote1, if_neg hm.1, if_neg hm.2.1, if_neg hm.2.2.1, if_neg hm.2.2.2.1, if_neg hm.2.2.2.2, if_neg (by simp [hg])]
    rfl

example : quote true (b "~x=1!") = b "~x=1!" := C25_plain true _ (by decide)

/-! ### Numbers out of range -/

/-- C27: a number too large for its type is read as the largest the type has, one too small as the smallest. -/
theorem C27_clamped (u : Under) (ds : List Dig) (h : ∀ d ∈ ds, d.val < 10) (k : Nat)
    (hk : u.width.modulus = 2 ^ (k + 1)) :
    readInt u (ds.map Dig.char) =
      (if u.signed then (if numeral 10 ds < 2 ^ k then (numeral 10 ds : Int) else 2 ^ k - 1)
       else if numeral 10 ds < 2 ^ (k + 1) then (numeral 10 ds : Int) else 2 ^ (k + 1) - 1) ∧
    (ds ≠ [] → u.signed = true → readInt u (45 :: ds.map Dig.char) =
      if numeral 10 ds ≤ 2 ^ k then -(numeral 10 ds : Int) else -2 ^ k) := by
  have e := strtol10_numeral ds h
  have hm : (2 : Int) ^ (k + 1) / 2 = 2 ^ k := by
    rw [Int.pow_succ]; omega
  have hpos : (0 : Int) < 2 ^ k := Int.pow_pos (by omega)
  have hcast : ((2 ^ k : Nat) : Int) = (2 : Int) ^ k := by simp
  have hcast2 : ((2 ^ (k + 1) : Nat) : Int) = (2 : Int) ^ (k + 1) := by simp
  have hp2 : (2 : Int) ^ (k + 1) = 2 * 2 ^ k := by rw [Int.pow_succ]; omega
  constructor
  · unfold readInt maxOf minOf
    simp only [e, hk]
    rw [hm]
    generalize numeral 10 ds = n
    cases u.signed
    · simp only [Bool.false_eq_true, if_false]
      rw [if_neg (by omega)]
      split <;> split <;> omega
    · simp only [if_true]
      rw [if_neg (by omega)]
      split <;> split <;> omega
  · intro hne hs
    have e2 : strtol10 (45 :: ds.map Dig.char) = -(numeral 10 ds : Int) := by
      have hc : ∀ c ∈ ds.map Dig.char, c ≠ 45 ∧ c ≠ 43 ∧ isSpace c = false := by
        intro c hc
        obtain ⟨d, hd, rfl⟩ := List.mem_map.1 hc
        have := decdig ⟨d.val, h d hd⟩ d.cap
        simp only at this
        exact ⟨this.2.2.2.2.1, this.2.2.2.2.2.1, this.2.2.2.2.2.2.2⟩
      have e1 := signed_none _ hc
      unfold strtol10 at e ⊢
      rw [e1] at e
      simp only [Bool.false_eq_true, if_false] at e
      have : signed (45 :: ds.map Dig.char) = (true, ds.map Dig.char) := rfl
      rw [this]
      simp only [if_true, e]
    unfold readInt maxOf minOf
    simp only [e2, hk, hs, if_true]
    rw [hm]
    generalize numeral 10 ds = n
    split
    · split <;> omega
    · rw [if_neg (by omega)]
      split <;> omega

/-- 32768 in a short. -/
example : readInt ⟨.w16, true⟩ ([⟨3, false⟩, ⟨2, false⟩, ⟨7, false⟩, ⟨6, false⟩, ⟨8, false⟩].map Dig.char) = 32767 :=
  (C27_clamped ⟨.w16, true⟩ _ (by simp) 15 rfl).1

/-! ### Booleans -/

/-- The words read as true, in any mixture of cases; everything else is read as false. -/
def truths : List Str := [b "1", b "t", b "true", b "y", b "yes", b "on"]

/-- `a` is `w` but for the case of letters. -/
def SameLetters : Str → Str → Prop
  | [], [] => True
  | x :: a, y :: w => (x = y ∨ (97 ≤ y.toNat ∧ y.toNat ≤ 122 ∧ x.toNat + 32 = y.toNat)) ∧ SameLetters a w
  | _, _ => False

private theorem lower_iff : ∀ y ∈ truths.flatten, ∀ x : Fin 256, toLower (UInt8.ofNat x.val) = y ↔
    (UInt8.ofNat x.val = y ∨ (97 ≤ y.toNat ∧ y.toNat ≤ 122 ∧ x.val + 32 = y.toNat)) := by decide +kernel

private theorem lower_byte {x y : UInt8} (h : y ∈ truths.flatten) : toLower x = y ↔
    (x = y ∨ (97 ≤ y.toNat ∧ y.toNat ≤ 122 ∧ x.toNat + 32 = y.toNat)) := by
  have := lower_iff y h ⟨x.toNat, x.toNat_lt⟩
  simpa using this

/-- C27: a boolean is read as true exactly from the words 1, t, true, y, yes and on, white space and the case
of letters not counting. -/
theorem C27_bool_words (s : Str) : readBool s = true ↔
    ∃ w ∈ truths, SameLetters (s.filter fun c => !isSpace c) w := by
  have e : readBool s = true ↔ ((s.filter fun c => !isSpace c).map toLower) ∈ truths := by
    unfold readBool
    rw [List.contains_iff_mem]
    have : trueNames = truths := by decide +kernel
    rw [this]
  rw [e]
  generalize s.filter _ = a
  have key : ∀ (a w : Str), (∀ c ∈ w, c ∈ truths.flatten) → (a.map toLower = w ↔ SameLetters a w) := by
    intro a
    induction a with
    | nil => intro w _; cases w <;> simp [SameLetters]
    | cons x a ih =>
      intro w hw
      cases w with
      | nil => simp [SameLetters]
      | cons y w =>
        simp only [List.map_cons, List.cons.injEq, SameLetters]
        rw [lower_byte (hw y (by simp)), ih w fun c hc => hw c (by simp [hc])]
  constructor
  · intro h
    exact ⟨_, h, (key _ _ fun c hc => List.mem_flatten.2 ⟨_, h, hc⟩).1 rfl⟩
  · rintro ⟨w, hw, hs⟩
    rw [(key a w fun c hc => List.mem_flatten.2 ⟨_, hw, hc⟩).2 hs]
    exact hw

example : readBool (b " tRue\n") = true ∧ readBool (b "2") = false := by decide +kernel

end Verif.Xml
