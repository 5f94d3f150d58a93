import Verif.XmlFlt
import Mathlib.Tactic.Linarith
import Mathlib.Tactic.Positivity
import Mathlib.Tactic.FieldSimp
import Mathlib.Tactic.Ring
import Mathlib.Tactic.NormNum
/-
Rounding to and from decimal digits: lemmas for C120.
-/
namespace Verif.XmlFlt

theorem rnd_near (x : Rat) : |x - rnd x| ≤ 1 / 2 := by
  have h1 := Int.floor_le x
  have h2 := Int.lt_floor_add_one x
  unfold rnd
  split
  · rw [abs_le]; constructor <;> linarith
  · split
    · push_cast; rw [abs_le]; constructor <;> linarith
    · split
      · rw [abs_le]; constructor <;> linarith
      · push_cast; rw [abs_le]; constructor <;> linarith

theorem rnd_eq {x : Rat} {n : Int} (h : |x - n| < 1 / 2) : rnd x = n := by
  have h1 := rnd_near x
  rw [abs_le] at h1
  rw [abs_lt] at h
  have h2 : (rnd x : Rat) < n + 1 := by linarith
  have h3 : (n : Rat) < rnd x + 1 := by linarith
  have h2 : rnd x < n + 1 := by exact_mod_cast h2
  have h3 : n < rnd x + 1 := by exact_mod_cast h3
  omega

theorem log_lo {b : Nat} (hb : 1 < b) {q : Rat} (h : 0 < q) : (b : Rat) ^ Int.log b q ≤ q := Int.zpow_log_le_self hb h
theorem log_hi {b : Nat} (hb : 1 < b) (q : Rat) : q < (b : Rat) ^ (Int.log b q + 1) := Int.lt_zpow_succ_log_self hb q

theorem log_unique {b : Nat} (hb : 1 < b) {q : Rat} {L : Int} (h1 : (b : Rat) ^ L ≤ q) (h2 : q < (b : Rat) ^ (L + 1)) : Int.log b q = L := by
  have hb' : (1 : Rat) < b := by exact_mod_cast hb
  have hp : (0 : Rat) < (b : Rat) ^ L := zpow_pos (by linarith) L
  have hq : 0 < q := lt_of_lt_of_le hp h1
  have a1 := log_lo hb hq
  have a2 := log_hi hb q
  have c1 : (b : Rat) ^ L < (b : Rat) ^ (Int.log b q + 1) := lt_of_le_of_lt h1 a2
  have c2 : (b : Rat) ^ Int.log b q < (b : Rat) ^ (L + 1) := lt_of_le_of_lt a1 h2
  have c1 := (zpow_lt_zpow_iff_right₀ hb').1 c1
  have c2 := (zpow_lt_zpow_iff_right₀ hb').1 c2
  omega

/-- The numbers of a format: an integer with at most `prec` binary digits, times a power of two. -/
def C120.Number (F : FF) (q : Rat) : Prop :=
  ∃ (m : Nat) (e : Int), m < 2 ^ F.prec ∧ F.emin ≤ e ∧ e ≤ F.emax ∧ q = (m : Rat) * 2 ^ e

theorem zp (e : Int) : (0 : Rat) < 2 ^ e := zpow_pos (by norm_num) e
theorem zadd (a b : Int) : (2 : Rat) ^ (a + b) = 2 ^ a * 2 ^ b := zpow_add₀ (by norm_num) a b
theorem zle {a b : Int} (h : a ≤ b) : (2 : Rat) ^ a ≤ 2 ^ b := zpow_le_zpow_right₀ (by norm_num) h
theorem zlt {a b : Int} (h : a < b) : (2 : Rat) ^ a < 2 ^ b := zpow_lt_zpow_right₀ (by norm_num) h
theorem zlt' {a b : Int} (h : (2 : Rat) ^ a < 2 ^ b) : a < b := (zpow_lt_zpow_iff_right₀ (by norm_num)).1 h
theorem zone (e : Int) : (2 : Rat) ^ (e + 1) = 2 * 2 ^ e := by rw [zadd]; ring

/-- A power of two that is not smaller is a multiple. -/
theorem zmul {a b : Int} (h : a ≤ b) : ∃ n : Nat, (2 : Rat) ^ b = (n : Rat) * 2 ^ a ∧ n = 2 ^ (b - a).toNat := by
  refine ⟨2 ^ (b - a).toNat, ?_, rfl⟩
  have : b = ((b - a).toNat : Int) + a := by omega
  conv_lhs => rw [this, zadd]
  push_cast
  rw [zpow_natCast]

theorem num_multiple {F : FF} {q : Rat} (hq : 0 < q) (h : C120.Number F q) : ∃ n : Nat, q = (n : Rat) * 2 ^ unit F q ∧ 0 < n := by
  obtain ⟨m, e, hm, h1, -, rfl⟩ := h
  have hlo := log_lo (b := 2) (by decide) hq
  have key : unit F ((m : Rat) * 2 ^ e) ≤ e := by
    unfold unit
    refine max_le ?_ h1
    have : (2 : Rat) ^ Int.log 2 ((m : Rat) * 2 ^ e) < 2 ^ ((F.prec : Int) + e) := by
      refine lt_of_le_of_lt hlo ?_
      rw [zadd, zpow_natCast]
      have : (m : Rat) < 2 ^ F.prec := by exact_mod_cast hm
      exact mul_lt_mul_of_pos_right this (zp e)
    have := zlt' this
    omega
  obtain ⟨n, h2, h3⟩ := zmul key
  generalize unit F ((m : Rat) * 2 ^ e) = u at *
  refine ⟨m * n, by rw [h2]; push_cast; ring, ?_⟩
  have hm0 : m ≠ 0 := by rintro rfl; simp at hq
  have hn0 : 0 < n := by rw [h3]; positivity
  exact Nat.mul_pos (Nat.pos_of_ne_zero hm0) hn0

/-- What is near enough to a number is rounded to it. -/
theorem nearest_of_near {F : FF} {q y : Rat} (hP : 0 < F.prec) (hq : 0 < q) (h : C120.Number F q) (hy : |y - q| * 2 ^ (F.prec + 1) < q) :
    nearest F y = q := by
  obtain ⟨n, hn, hn0⟩ := num_multiple hq h
  have hlo := log_lo (b := 2) (by decide) hq
  have hhi := log_hi (b := 2) (by decide) q
  push_cast at hlo hhi
  generalize hL : Int.log 2 q = L at *
  generalize hu : unit F q = u at *
  have hu1 : L - (F.prec - 1) ≤ u := by rw [← hu, ← hL]; exact le_max_left _ _
  have hpp : (0 : Rat) < 2 ^ (F.prec + 1) := by positivity
  -- the distance is less than half a unit
  have d1 : |y - q| * 2 ^ ((F.prec : Int) + 1) < 2 ^ (L + 1) := by
    have : (2 : Rat) ^ ((F.prec : Int) + 1) = 2 ^ (F.prec + 1) := by rw [← zpow_natCast]; push_cast; rfl
    rw [this]; linarith
  have d2 : |y - q| < 2 ^ (L - F.prec) := by
    have e : (2 : Rat) ^ (L + 1) = 2 ^ (L - F.prec) * 2 ^ ((F.prec : Int) + 1) := by rw [← zadd]; congr 1; ring
    rw [e] at d1
    exact lt_of_mul_lt_mul_right d1 (le_of_lt (zp _))
  have d3 : |y - q| < 2 ^ (u - 1) := lt_of_lt_of_le d2 (zle (by omega))
  have hu2 : (2 : Rat) ^ u = 2 * 2 ^ (u - 1) := by rw [← zone]; congr 1; ring
  rw [abs_lt] at d3
  have hLq := zp L
  have q1 : (2 : Rat) ^ u ≤ q := by
    rw [hn]
    have : (1 : Rat) ≤ n := by exact_mod_cast hn0
    nlinarith [zp u]
  have uL : u ≤ L := by
    have := zlt' (lt_of_le_of_lt q1 hhi)
    omega
  have hy0 : 0 < y := by linarith [zp (u - 1)]
  have hyne : y ≠ 0 := ne_of_gt hy0
  -- y is below the next power of two
  have yhi : y < 2 ^ (L + 1) := by
    obtain ⟨k, hk, -⟩ := zmul (a := u) (b := L + 1) (by omega)
    have : n < k := by
      rw [hn, hk] at hhi
      exact_mod_cast lt_of_mul_lt_mul_right hhi (le_of_lt (zp u))
    have : (n : Rat) + 1 ≤ k := by exact_mod_cast this
    have : q + 2 ^ u ≤ 2 ^ (L + 1) := by
      rw [hk, hn]; nlinarith [zp u]
    linarith [zp (u - 1)]
  have fin : ∀ e : Int, unit F y = e → (∃ k : Int, q = (k : Rat) * 2 ^ e) → |y - q| < 2 ^ (e - 1) → nearest F y = q := by
    intro e he ⟨k, hk⟩ hd
    unfold nearest
    rw [if_neg hyne, he]
    have : rnd (y / 2 ^ e) = k := by
      apply rnd_eq
      have : y / 2 ^ e - k = (y - q) / 2 ^ e := by
        rw [hk, sub_div, mul_div_assoc, div_self (ne_of_gt (zp e)), mul_one]
      rw [this, abs_div, abs_of_pos (zp e), div_lt_iff₀ (zp e)]
      have : (2 : Rat) ^ e = 2 * 2 ^ (e - 1) := by rw [← zone]; congr 1; ring
      rw [this]; linarith
    rw [this, hk]
  by_cases ylo : 2 ^ L ≤ y
  · have : Int.log 2 y = L := log_unique (by decide) (by push_cast; exact ylo) (by push_cast; exact yhi)
    refine fin u ?_ ⟨n, by rw [hn]; push_cast; rfl⟩ (by rw [abs_lt]; exact d3)
    rw [← hu]; unfold unit; rw [this, hL]
  · push Not at ylo
    -- then q is a power of two
    have hqL : q = 2 ^ L := by
      obtain ⟨k, hk, -⟩ := zmul uL
      by_contra hne
      have : (2 : Rat) ^ L < q := lt_of_le_of_ne hlo (Ne.symm hne)
      have : k < n := by
        rw [hn, hk] at this
        exact_mod_cast lt_of_mul_lt_mul_right this (le_of_lt (zp u))
      have : (k : Rat) + 1 ≤ n := by exact_mod_cast this
      have : 2 ^ L + 2 ^ u ≤ q := by
        rw [hk, hn]; nlinarith [zp u]
      linarith [zp (u - 1)]
    have d4 : |y - q| < 2 ^ (L - F.prec - 1) := by
      have e : (2 : Rat) ^ L = 2 ^ (L - F.prec - 1) * 2 ^ (F.prec + 1) := by
        have : (2 : Rat) ^ (F.prec + 1) = 2 ^ ((F.prec : Int) + 1) := by rw [← zpow_natCast]; push_cast; rfl
        rw [this, ← zadd]; congr 1; ring
      have h5 := hy
      rw [hqL, e, ← e] at h5
      have h5 : |y - 2 ^ L| * 2 ^ (F.prec + 1) < 2 ^ (L - F.prec - 1) * 2 ^ (F.prec + 1) := by rw [← e]; exact h5
      rw [hqL]
      exact lt_of_mul_lt_mul_right h5 (le_of_lt hpp)
    have hlogy : Int.log 2 y = L - 1 := by
      refine log_unique (by decide) ?_ ?_
      · push_cast
        have h6 : (2 : Rat) ^ L = 2 * 2 ^ (L - 1) := by rw [← zone]; congr 1; ring
        have h7 : (2 : Rat) ^ (L - F.prec - 1) ≤ 2 ^ (L - 1) := zle (by omega)
        rw [abs_lt] at d4
        linarith
      · push_cast; rw [sub_add_cancel]; exact ylo
    have huy : unit F y = max (L - F.prec) F.emin := by
      unfold unit; rw [hlogy]; congr 1; ring
    by_cases hc : L - F.prec ≤ F.emin
    · -- the exponent is the least one
      have e1 : u = unit F y ∨ u = F.emin + 1 := by
        rw [huy, max_eq_right hc, ← hu]
        unfold unit
        rw [hL]
        rcases le_total (L - ((F.prec : Int) - 1)) F.emin with h | h
        · rw [max_eq_right h]; exact .inl rfl
        · rw [max_eq_left h]; omega
      rcases e1 with e1 | e1
      · exact fin u e1.symm ⟨n, by rw [hn]; push_cast; rfl⟩ (by rw [abs_lt]; exact d3)
      · have e2 : unit F y = F.emin := by rw [huy, max_eq_right hc]
        have e3 : L - F.prec = F.emin := by
          have : u = max (L - (F.prec - 1)) F.emin := by rw [← hu]; unfold unit; rw [hL]
          omega
        refine fin F.emin e2 ?_ (by rw [← e3]; exact d4)
        obtain ⟨k, hk, -⟩ := zmul (a := F.emin) (b := L) (by omega)
        exact ⟨k, by rw [hqL, hk]; push_cast; rfl⟩
    · push Not at hc
      have e2 : unit F y = L - F.prec := by rw [huy, max_eq_left (le_of_lt hc)]
      refine fin (L - F.prec) e2 ?_ d4
      obtain ⟨k, hk, -⟩ := zmul (a := L - F.prec) (b := L) (by omega)
      exact ⟨k, by rw [hqL, hk]; push_cast; rfl⟩

/-- A number is the nearest to itself. -/
theorem nearest_self {F : FF} {q : Rat} (hP : 0 < F.prec) (hq : 0 ≤ q) (h : C120.Number F q) : nearest F q = q := by
  rcases eq_or_lt_of_le hq with h0 | h0
  · rw [← h0]; simp [nearest]
  · exact nearest_of_near hP h0 h (by simpa using h0)

theorem le_largest {F : FF} {q : Rat} (h : C120.Number F q) : q ≤ largest F := by
  obtain ⟨m, e, hm, -, h2, rfl⟩ := h
  unfold largest
  have h3 : (m : Rat) + 1 ≤ 2 ^ F.prec := by exact_mod_cast hm
  have h4 := zle h2
  have h5 : (0 : Rat) ≤ m := by positivity
  nlinarith [zp e, zp F.emax]

/-! ### Decimal digits -/

theorem tp (e : Int) : (0 : Rat) < 10 ^ e := zpow_pos (by norm_num) e

/-- The decimal digits of a number are near it. -/
theorem decimal_near (P : Nat) {q : Rat} (hq : 0 < q) (hP : 0 < P) :
    |((decimal P q).1 : Rat) * 10 ^ (decimal P q).2 - q| * 2 ≤ 10 ^ (decimal P q).2 ∧
    (10 : Rat) ^ (decimal P q).2 * 10 ^ (P - 1) ≤ q ∧ 10 ^ (P - 1) ≤ (decimal P q).1 ∧ (decimal P q).1 ≤ 10 ^ P := by
  unfold decimal
  simp only
  have hlo := log_lo (b := 10) (by decide) hq
  have hhi := log_hi (b := 10) (by decide) q
  push_cast at hlo hhi
  generalize Int.log 10 q = L at *
  have hk := tp (L - ((P : Int) - 1))
  have e1 : (10 : Rat) ^ L = 10 ^ (L - ((P : Int) - 1)) * 10 ^ (P - 1) := by
    rw [← zpow_natCast, ← zpow_add₀ (by norm_num)]; congr 1; omega
  have e2 : (10 : Rat) ^ (L + 1) = 10 ^ (L - ((P : Int) - 1)) * 10 ^ P := by
    rw [← zpow_natCast, ← zpow_add₀ (by norm_num)]; congr 1; omega
  generalize (10 : Rat) ^ (L - ((P : Int) - 1)) = u at *
  have a1 : (10 : Rat) ^ (P - 1) ≤ q / u := by rw [le_div_iff₀ hk]; linarith
  have a2 : q / u < (10 : Rat) ^ P := by rw [div_lt_iff₀ hk]; linarith
  have hr := rnd_near (q / u)
  rw [abs_le] at hr
  generalize rnd (q / u) = r at *
  have b1 : (10 : Int) ^ (P - 1) ≤ r := by
    have : ((10 : Int) ^ (P - 1) : Rat) < (r : Rat) + 1 := by push_cast; linarith
    have : (10 : Int) ^ (P - 1) < r + 1 := by exact_mod_cast this
    omega
  have b2 : r ≤ (10 : Int) ^ P := by
    have : (r : Rat) < ((10 : Int) ^ P : Rat) + 1 := by push_cast; linarith
    have : r < (10 : Int) ^ P + 1 := by exact_mod_cast this
    omega
  have r0 : 0 ≤ r := le_trans (by positivity) b1
  have rc : ((r.toNat : Nat) : Rat) = (r : Rat) := by
    have : ((r.toNat : Int) : Rat) = (r : Rat) := by rw [Int.toNat_of_nonneg r0]
    exact_mod_cast this
  refine ⟨?_, by linarith, ?_, ?_⟩
  · rw [rc]
    have : (r : Rat) * u - q = -((q / u - r) * u) := by field_simp; ring
    rw [this, abs_neg, abs_mul, abs_of_pos hk]
    have : |q / u - r| ≤ 1 / 2 := by rw [abs_le]; exact hr
    nlinarith
  · zify; rw [Int.toNat_of_nonneg r0]; exact_mod_cast b1
  · zify; rw [Int.toNat_of_nonneg r0]; exact_mod_cast b2

/-- Enough digits lead back to the number. -/
theorem decimal_back {F : FF} {P : Nat} {q : Rat} (hF : 0 < F.prec) (hP : 0 < P) (hd : 2 ^ F.prec < 10 ^ (P - 1)) (hq : 0 < q) (h : C120.Number F q) :
    nearest F (((decimal P q).1 : Rat) * 10 ^ (decimal P q).2) = q := by
  obtain ⟨h1, h2, -, -⟩ := decimal_near P hq hP
  refine nearest_of_near hF hq h ?_
  generalize |((decimal P q).1 : Rat) * 10 ^ (decimal P q).2 - q| = δ at *
  have hk := tp (decimal P q).2
  generalize (10 : Rat) ^ (decimal P q).2 = u at *
  have hd' : (2 : Rat) ^ F.prec < 10 ^ (P - 1) := by exact_mod_cast hd
  have : δ * 2 ^ (F.prec + 1) ≤ u * 2 ^ F.prec := by
    rw [pow_succ]
    have : (0 : Rat) < 2 ^ F.prec := by positivity
    nlinarith
  have : u * 2 ^ F.prec < u * 10 ^ (P - 1) := mul_lt_mul_of_pos_left hd' hk
  linarith

theorem strip_val : ∀ (f d : Nat) (k : Int), ((strip f d k).1 : Rat) * 10 ^ (strip f d k).2 = (d : Rat) * 10 ^ k
  | 0, _, _ => rfl
  | f + 1, d, k => by
    unfold strip
    split
    · rename_i h
      rw [strip_val f]
      have : (d : Rat) = 10 * ((d / 10 : Nat) : Rat) := by
        have : d = 10 * (d / 10) := by omega
        exact_mod_cast this
      rw [this, zpow_add₀ (by norm_num), zpow_one]; ring
    · rfl

end Verif.XmlFlt
