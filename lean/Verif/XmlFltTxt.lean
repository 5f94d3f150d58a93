import Verif.XmlFltNum
import Verif.XmlKeys
/-
The text of a number: lemmas for C120.
-/
namespace Verif.XmlFlt
open Verif.Xml
open EnumKeys (Str isSpace)

theorem valD_zeros (n : Nat) (s : Str) : valD (List.replicate n 48 ++ s) = valD s := by
  induction n with
  | zero => rfl
  | succ n ih => rw [List.replicate_succ, List.cons_append]; simpa [valD] using ih

theorem valD_app (s : Str) : ∀ n : Nat, valD (s ++ List.replicate n 48) = valD s * 10 ^ n
  | 0 => by simp
  | n + 1 => by
    rw [List.replicate_succ', ← List.append_assoc, valD_snoc, valD_app s n, pow_succ]
    simp; ring

theorem zero_digit : isDigit 48 = true := by decide
theorem dot_digit : isDigit 46 = false := by decide
theorem e_digit : isDigit 101 = false := by decide

theorem take_all {s r : Str} (h : ∀ c ∈ s, isDigit c = true) (hr : ∀ c t, r = c :: t → isDigit c = false) :
    (s ++ r).takeWhile isDigit = s ∧ (s ++ r).dropWhile isDigit = r := by
  induction s with
  | nil =>
    cases r with
    | nil => exact ⟨rfl, rfl⟩
    | cons c t => simp [hr c t rfl]
  | cons c s ih =>
    have := ih fun c hc => h c (by simp [hc])
    simp [h c (by simp), this]

theorem numOf_int {s : Str} (h : ∀ c ∈ s, isDigit c = true) (h0 : s ≠ []) : numOf s = some (valD s : Rat) := by
  have := take_all (r := []) h (by simp)
  rw [List.append_nil] at this
  simp [numOf, this, fracOf, expOf, h0]

theorem numOf_point {a b : Str} (ha : ∀ c ∈ a, isDigit c = true) (hb : ∀ c ∈ b, isDigit c = true) (h0 : a ≠ []) :
    numOf (a ++ 46 :: b) = some ((valD (a ++ b) : Rat) * 10 ^ (-(b.length : Int))) := by
  have h1 := take_all (r := 46 :: b) ha (by intro c t h; cases h; exact dot_digit)
  have h2 := take_all (r := []) hb (by simp)
  rw [List.append_nil] at h2
  simp [numOf, h1, fracOf, h2, expOf, h0]

theorem exp2_digits {n : Nat} {c : UInt8} (h : c ∈ exp2 n) : isDigit c = true := by
  unfold exp2 at h
  split at h
  · rcases List.mem_cons.1 h with rfl | h
    · exact zero_digit
    · exact dec_digits h
  · exact dec_digits h

theorem valD_exp2 (n : Nat) : valD (exp2 n) = n := by
  unfold exp2
  split
  · have := valD_zeros 1 (dec n)
    rw [List.replicate_one, List.singleton_append] at this
    rw [this, valD_dec]
  · exact valD_dec n

theorem expOf_exp (neg : Bool) (n : Nat) : expOf ([101, if neg then 45 else 43] ++ exp2 n) = if neg then -(n : Int) else n := by
  have h := take_all (r := []) (fun c hc => exp2_digits (n := n) hc) (by simp)
  rw [List.append_nil] at h
  cases neg <;> simp [expOf, signOf, h, valD_exp2]

theorem numOf_sci {a b : Str} (ha : ∀ c ∈ a, isDigit c = true) (hb : ∀ c ∈ b, isDigit c = true) (h0 : a ≠ []) (neg : Bool) (n : Nat) :
    numOf (a ++ (if b = [] then [] else 46 :: b) ++ ([101, if neg then 45 else 43] ++ exp2 n)) =
      some ((valD (a ++ b) : Rat) * 10 ^ ((if neg then -(n : Int) else n) - b.length)) := by
  have he := expOf_exp neg n
  generalize hE : ([101, if neg then 45 else 43] ++ exp2 n : Str) = E at *
  have hE1 : ∀ c t, E = c :: t → isDigit c = false := by
    intro c t h; rw [← hE] at h; simp at h; rw [← h.1]; exact e_digit
  have hE2 : ∀ t, E ≠ 46 :: t := by
    intro t h; rw [← hE] at h; simp at h
  by_cases hb0 : b = []
  · subst hb0
    simp only [if_true, List.append_nil]
    have h1 := take_all ha hE1
    have h2 : fracOf E = ([], E) := by
      unfold fracOf
      split
      · exact absurd rfl (hE2 _)
      · rfl
    simp [numOf, h1, h2, he, h0]
  · rw [if_neg hb0, List.append_assoc, List.cons_append]
    have h1 := take_all (r := 46 :: (b ++ E)) ha (by intro c t h; cases h; exact dot_digit)
    have h2 := take_all hb hE1
    simp [numOf, h1, fracOf, h2, he, h0]

/-- The text of a number in either notation has its value. -/
theorem numOf_layout (P d : Nat) (j : Int) : numOf (layout P d j) = some ((d : Rat) * 10 ^ j) := by
  have hd : ∀ c ∈ dec d, isDigit c = true := fun c hc => dec_digits hc
  have hv := valD_dec d
  have hne := dec_ne d
  unfold layout
  simp only
  generalize hs : dec d = s at *
  have hl : 0 < s.length := List.length_pos_iff.2 hne
  have htake : ∀ n, ∀ c ∈ s.take n, isDigit c = true := fun n c hc => hd c (List.mem_of_mem_take hc)
  have hdrop : ∀ n, ∀ c ∈ s.drop n, isDigit c = true := fun n c hc => hd c (List.mem_of_mem_drop hc)
  split
  · rename_i hX
    split
    · rename_i hj
      rw [numOf_int (by
        intro c hc
        rcases List.mem_append.1 hc with hc | hc
        · exact hd c hc
        · rw [List.eq_of_mem_replicate hc]; exact zero_digit) (by simp [hne]), valD_app, hv]
      push_cast
      rw [← zpow_natCast, Int.toNat_of_nonneg hj]
    · rename_i hj
      split
      · rename_i h0
        rw [numOf_point (htake _) (hdrop _) (by
          intro h
          rcases List.take_eq_nil_iff.1 h with h | h
          · omega
          · exact hne h), List.take_append_drop, hv]
        congr 3
        simp; omega
      · rename_i h0
        have := numOf_point (a := [48]) (b := List.replicate (-((s.length : Int) - 1 + j) - 1).toNat 48 ++ s) (by simp [zero_digit]) (by
          intro c hc
          rcases List.mem_append.1 hc with hc | hc
          · rw [List.eq_of_mem_replicate hc]; exact zero_digit
          · exact hd c hc) (by simp)
        simp only [List.singleton_append] at this
        simp only [List.cons_append, List.nil_append]
        rw [this]
        have e : valD (48 :: (List.replicate (-((s.length : Int) - 1 + j) - 1).toNat 48 ++ s)) = d := by
          have := valD_zeros ((-((s.length : Int) - 1 + j) - 1).toNat + 1) s
          rw [List.replicate_succ, List.cons_append] at this
          rw [this, hv]
        rw [e]
        congr 3
        simp; omega
  · have e1 : (if s.length ≤ 1 then [] else 46 :: s.drop 1 : Str) = if s.drop 1 = [] then [] else 46 :: s.drop 1 := by
      simp only [List.drop_eq_nil_iff]
    have e2 : (if (s.length : Int) - 1 + j < 0 then 45 else 43 : UInt8) = if decide ((s.length : Int) - 1 + j < 0) then 45 else 43 := by simp
    rw [e1, e2, List.append_assoc, numOf_sci (htake 1) (hdrop 1) (by
      intro h
      rcases List.take_eq_nil_iff.1 h with h | h
      · omega
      · exact hne h), List.take_append_drop, hv]
    congr 3
    by_cases hneg : (s.length : Int) - 1 + j < 0
    · rw [if_pos (by simpa using hneg), List.length_drop]
      omega
    · rw [if_neg (by simpa using hneg), List.length_drop]
      omega

/-- Characters of numbers. -/
def txtCh (c : UInt8) : Bool := isDigit c || c == 46 || c == 101 || c == 43 || c == 45

theorem layout_chars (P d : Nat) (j : Int) : ∀ c ∈ layout P d j, txtCh c = true := by
  have hd : ∀ c ∈ dec d, txtCh c = true := fun c hc => by simp [txtCh, dec_digits hc]
  have he : ∀ n, ∀ c ∈ exp2 n, txtCh c = true := fun n c hc => by simp [txtCh, exp2_digits hc]
  have hz : ∀ n, ∀ c ∈ List.replicate n (48 : UInt8), txtCh c = true := fun n c hc => by rw [List.eq_of_mem_replicate hc]; decide
  have htake : ∀ n, ∀ c ∈ (dec d).take n, txtCh c = true := fun n c hc => hd c (List.mem_of_mem_take hc)
  have hdrop : ∀ n, ∀ c ∈ (dec d).drop n, txtCh c = true := fun n c hc => hd c (List.mem_of_mem_drop hc)
  unfold layout
  simp only
  intro c hc
  split at hc
  · split at hc
    · rcases List.mem_append.1 hc with hc | hc
      · exact hd c hc
      · exact hz _ c hc
    · split at hc
      · rcases List.mem_append.1 hc with hc | hc
        · exact htake _ c hc
        · rcases List.mem_cons.1 hc with rfl | hc
          · decide
          · exact hdrop _ c hc
      · rcases List.mem_append.1 hc with hc | hc
        · rcases List.mem_append.1 hc with hc | hc
          · simp at hc; rcases hc with rfl | rfl <;> decide
          · exact hz _ c hc
        · exact hd c hc
  · rcases List.mem_append.1 hc with hc | hc
    · rcases List.mem_append.1 hc with hc | hc
      · rcases List.mem_append.1 hc with hc | hc
        · exact htake _ c hc
        · split at hc
          · simp at hc
          · rcases List.mem_cons.1 hc with rfl | hc
            · decide
            · exact hdrop _ c hc
      · simp at hc
        rcases hc with rfl | rfl
        · decide
        · split <;> decide
    · exact he _ c hc

/-- It begins with a digit. -/
theorem layout_head (P d : Nat) (j : Int) : ∃ c r, layout P d j = c :: r ∧ isDigit c = true := by
  obtain ⟨c, s, hs⟩ := List.exists_cons_of_ne_nil (dec_ne d)
  have hc : isDigit c = true := dec_digits (n := d) (by rw [hs]; simp)
  unfold layout
  simp only [hs]
  split
  · split
    · exact ⟨c, _, rfl, hc⟩
    · split
      · exact ⟨c, _, rfl, hc⟩
      · exact ⟨48, _, rfl, zero_digit⟩
  · exact ⟨c, _, rfl, hc⟩

end Verif.XmlFlt
