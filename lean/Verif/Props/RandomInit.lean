import Verif.RandomInit
/-
C77: random initialisation leaves every object in a valid state.
-/
namespace Verif.RandomInit
open OMap EnumKeys

/-! ### Rounding -/

private theorem rnd_hi (f : Dbl) {x y : Rat} (h0 : 0 ≤ x) (hy : Rep y) (h : x ≤ y) : f.rnd x ≤ y := by
  have := f.near x y h0 hy
  unfold dist at this; grind

private theorem rnd_lo (f : Dbl) {x y : Rat} (h0 : 0 ≤ x) (hy : Rep y) (h : y ≤ x) : y ≤ f.rnd x := by
  have := f.near x y h0 hy
  unfold dist at this; grind

private theorem rnd_eq (f : Dbl) {x : Rat} (h0 : 0 ≤ x) (hx : Rep x) : f.rnd x = x := by
  have := rnd_hi f h0 hx (by grind); have := rnd_lo f h0 hx (by grind); grind

/-- Rounding goes below `n` if a representable number there is nearer. -/
private theorem rnd_below (f : Dbl) {x y n : Rat} (h0 : 0 ≤ x) (hy : Rep y) (hyx : y ≤ x)
    (hn : x - y < n - x) : f.rnd x < n := by
  have := f.near x y h0 hy
  unfold dist at this; grind

private theorem rep_nat {n : Nat} (h : n ≤ 9007199254740992) : Rep (n : Rat) :=
  ⟨n, 0, h, .inl ⟨by omega, by grind⟩⟩

private theorem rep_zero : Rep 0 := rep_nat (n := 0) (by omega)

private theorem rnd_nonneg (f : Dbl) {x : Rat} (h0 : 0 ≤ x) : 0 ≤ f.rnd x := rnd_lo f h0 rep_zero h0

private theorem rep_div {x : Rat} (m k : Nat) (hm : m ≤ 9007199254740992) (hk : k ≤ 1074)
    (h : x * ((2 ^ k : Nat) : Rat) = (m : Rat)) : Rep x := ⟨m, k, hm, .inr ⟨hk, h⟩⟩

private theorem cast_pow_add (a b : Nat) :
    ((2 ^ (a + b) : Nat) : Rat) = ((2 ^ a : Nat) : Rat) * ((2 ^ b : Nat) : Rat) := by
  rw [Nat.pow_add, Rat.natCast_mul]

private theorem cast_pos (a : Nat) : (1 : Rat) ≤ ((2 ^ a : Nat) : Rat) := by
  have := @Nat.one_le_two_pow a
  exact_mod_cast this

/-- Representable numbers of at least 2^52 units of 2^-j are whole numbers of such units. -/
private theorem rep_units {z : Rat} (h : Rep z) (j : Nat) (hz : 4503599627370496 ≤ z * ((2 ^ j : Nat) : Rat)) :
    ∃ i : Nat, z * ((2 ^ j : Nat) : Rat) = (i : Rat) := by
  obtain ⟨m, k, hm, ⟨-, h⟩ | ⟨-, h⟩⟩ := h
  · exact ⟨m * 2 ^ k * 2 ^ j, by rw [h, Rat.natCast_mul, Rat.natCast_mul]⟩
  · by_cases hkj : k ≤ j
    · refine ⟨m * 2 ^ (j - k), ?_⟩
      rw [Rat.natCast_mul, ← h, show j = k + (j - k) by omega, cast_pow_add]
      rw [show k + (j - k) - k = j - k by omega]; grind
    · obtain ⟨d, rfl⟩ : ∃ d, k = j + 1 + d := ⟨k - j - 1, by omega⟩
      rw [show j + 1 + d = j + (1 + d) by omega, cast_pow_add, cast_pow_add] at h
      have h2 : ((2 ^ 1 : Nat) : Rat) = 2 := by decide
      have hd := cast_pos d
      rw [h2] at h
      have hm' : (m : Rat) ≤ 9007199254740992 := by exact_mod_cast hm
      refine ⟨4503599627370496, ?_⟩
      generalize ((2 ^ j : Nat) : Rat) = J at *
      generalize ((2 ^ d : Nat) : Rat) = D at *
      have h1 : (z * J) * D ≥ z * J := by
        have := Rat.mul_le_mul_of_nonneg_left (c := z * J) hd (by grind)
        grind
      have : ((4503599627370496 : Nat) : Rat) = 4503599627370496 := rfl
      grind

/-- What `rand()` promises: a double in [0,1). -/
def InUnit (r : Rat) : Prop := Rep r ∧ 0 ≤ r ∧ r < 1

private theorem unit_le {r : Rat} (h : InUnit r) : r ≤ 9007199254740991 / 9007199254740992 := by
  obtain ⟨h, h0, h1⟩ := h
  have hp : ((2 ^ 53 : Nat) : Rat) = 9007199254740992 := by rfl
  by_cases hr : r < 1 / 2
  · grind
  · obtain ⟨i, hi⟩ := rep_units h 53 (by rw [hp]; grind)
    rw [hp] at hi
    have : (i : Rat) < ((9007199254740992 : Nat) : Rat) := by
      have : ((9007199254740992 : Nat) : Rat) = 9007199254740992 := rfl
      grind
    have : i < 9007199254740992 := by exact_mod_cast this
    have : (i : Rat) ≤ ((9007199254740991 : Nat) : Rat) := by
      have : i ≤ 9007199254740991 := by omega
      exact_mod_cast this
    have : ((9007199254740991 : Nat) : Rat) = 9007199254740991 := rfl
    grind

private theorem mul_unit {n r : Rat} (hn : 0 ≤ n) (h : InUnit r) :
    0 ≤ n * r ∧ n * r ≤ n - n / 9007199254740992 := by
  have h1 := Rat.mul_le_mul_of_nonneg_left (unit_le h) hn
  have h2 := Rat.mul_nonneg hn h.2.1
  exact ⟨h2, by grind⟩

private theorem rnd_mono (f : Dbl) {x y : Rat} (h0 : 0 ≤ x) (h : x ≤ y) : f.rnd x ≤ f.rnd y := by
  by_cases hxy : x = y
  · rw [hxy]; grind
  · have h1 := f.near x (f.rnd y) h0 (f.rep y (by grind))
    have h2 := f.near y (f.rnd x) (by grind) (f.rep x h0)
    unfold dist at h1 h2; grind

/-- The product of a whole number and a number below one stays below. -/
private theorem rnd_mul_lt (f : Dbl) {n : Nat} (hn : 1 ≤ n) (hb : n < 9007199254740992) {r : Rat}
    (hr : InUnit r) : 0 ≤ f.rnd (n * r) ∧ f.rnd (n * r) < n := by
  have hn1 : (1 : Rat) ≤ n := by exact_mod_cast hn
  obtain ⟨h0, h1⟩ := mul_unit (n := n) (by grind) hr
  refine ⟨rnd_nonneg f h0, ?_⟩
  refine Std.lt_of_le_of_lt (rnd_mono f h0 h1) ?_
  obtain ⟨k, hk, hk2⟩ : ∃ k, 2 ^ k ≤ n ∧ n < 2 ^ (k + 1) :=
    ⟨n.log2, Nat.log2_self_le (by omega), Nat.lt_log2_self⟩
  have hk53 : k ≤ 52 := by
    by_cases hc : k ≤ 52
    · exact hc
    · have : 2 ^ 53 ≤ 2 ^ k := Nat.pow_le_pow_right (by omega) (by omega)
      omega
  obtain ⟨j, hj⟩ : ∃ j, k + j = 52 := ⟨52 - k, by omega⟩
  have hAB := cast_pow_add k j
  rw [hj, show ((2 ^ 52 : Nat) : Rat) = 4503599627370496 by rfl] at hAB
  have hA : ((2 ^ k : Nat) : Rat) ≤ n := by exact_mod_cast hk
  have hA2 : (n : Rat) < 2 * ((2 ^ k : Nat) : Rat) := by
    have := cast_pow_add k 1
    rw [show ((2 ^ 1 : Nat) : Rat) = 2 by rfl] at this
    have h2 : (n : Rat) < ((2 ^ (k + 1) : Nat) : Rat) := by exact_mod_cast hk2
    grind
  by_cases he : n = 2 ^ k
  · -- a power of two: the number just below is representable
    have hr' : Rep ((n : Rat) - n / 9007199254740992) := by
      refine rep_div 9007199254740991 (j + 1) (by omega) (by omega) ?_
      have hc := cast_pow_add j 1
      rw [show ((2 ^ 1 : Nat) : Rat) = 2 by rfl] at hc
      rw [hc]
      have hne : (n : Rat) = ((2 ^ k : Nat) : Rat) := by rw [he]
      have : ((9007199254740991 : Nat) : Rat) = 9007199254740991 := rfl
      rw [this, hne]
      generalize ((2 ^ k : Nat) : Rat) = A at *
      generalize ((2 ^ j : Nat) : Rat) = B at *
      grind
    rw [rnd_eq f (by grind) hr']
    grind
  · have hA3 : ((2 ^ k : Nat) : Rat) < n := by
      have : 2 ^ k < n := by omega
      exact_mod_cast this
    have hm1 : 1 ≤ n * 2 ^ j := Nat.mul_pos (by omega) (Nat.two_pow_pos j)
    have hm2 : n * 2 ^ j ≤ 9007199254740992 := by
      have h1 : n * 2 ^ j ≤ 2 ^ (k + 1) * 2 ^ j := Nat.mul_le_mul_right _ (by omega)
      rw [← Nat.pow_add, show k + 1 + j = 53 by omega] at h1
      omega
    have hy : Rep ((n : Rat) - ((2 ^ k : Nat) : Rat) / 4503599627370496) := by
      refine rep_div (n * 2 ^ j - 1) j (by omega) (by omega) ?_
      have : ((n * 2 ^ j - 1 : Nat) : Rat) = (n : Rat) * ((2 ^ j : Nat) : Rat) - 1 := by
        rw [← Rat.natCast_mul]
        have h : ((n * 2 ^ j : Nat) : Rat) = ((n * 2 ^ j - 1 + 1 : Nat) : Rat) := by
          rw [Nat.sub_add_cancel hm1]
        rw [h, Rat.natCast_add]
        have : ((1 : Nat) : Rat) = 1 := rfl
        grind
      rw [this]
      generalize ((2 ^ k : Nat) : Rat) = A at *
      generalize ((2 ^ j : Nat) : Rat) = B at *
      grind
    refine rnd_below f (by grind) hy (by grind) (by grind)

/-! ### Draws -/

private theorem floor_nonneg {x : Rat} (h : 0 ≤ x) : 0 ≤ x.floor := Rat.le_floor_iff.2 h

private theorem trunc_some {m : Int} {x : Rat} (h0 : 0 ≤ x) (h : x < (m : Rat) + 1) :
    ∃ i, trunc m x = some i ∧ 0 ≤ i ∧ i ≤ m ∧ (i : Rat) ≤ x := by
  have : x.floor < m + 1 := Rat.floor_lt_iff.2 (by rw [Rat.intCast_add]; exact_mod_cast h)
  exact ⟨x.floor, by simp [trunc, show x.floor ≤ m by omega], floor_nonneg h0, by omega, Rat.floor_le x⟩

private theorem draw_lt (f : Dbl) {n : Nat} (hn : 1 ≤ n) (hb : n ≤ 2147483647) {r : Rat} (hr : InUnit r) :
    ∃ i, trunc 2147483647 (f.rnd (n * r)) = some i ∧ 0 ≤ i ∧ i < n := by
  obtain ⟨h0, h1⟩ := rnd_mul_lt f hn (by omega) hr
  have hb' : (n : Rat) ≤ ((2147483647 : Nat) : Rat) := by exact_mod_cast hb
  obtain ⟨i, hi, hi0, -, hle⟩ := trunc_some (m := 2147483647) h0 (by
    have : ((2147483647 : Nat) : Rat) = 2147483647 := rfl
    have : ((2147483647 : Int) : Rat) = 2147483647 := rfl
    grind)
  refine ⟨i, hi, hi0, ?_⟩
  have : (i : Rat) < ((n : Int) : Rat) := by
    have : ((n : Int) : Rat) = (n : Rat) := rfl
    grind
  exact_mod_cast this

private theorem drawSize_ok (f : Dbl) {r : Rat} (hr : InUnit r) :
    ∃ i, drawSize f r = some i ∧ 0 ≤ i ∧ i < 10 := draw_lt f (n := 10) (by omega) (by omega) hr

private theorem drawChar_ok (f : Dbl) {r : Rat} (hr : InUnit r) :
    ∃ i, drawChar f r = some i ∧ 32 ≤ i ∧ i < 127 := by
  obtain ⟨h0, h1⟩ := rnd_mul_lt f (n := 95) (by omega) (by omega) hr
  have e95 : ((95 : Nat) : Rat) = 95 := rfl
  rw [e95] at h0 h1
  have hrep := f.rep (95 * r) (mul_unit (n := 95) (by decide) hr).1
  unfold drawChar
  generalize f.rnd (95 * r) = y at *
  have hp : ((2 ^ 46 : Nat) : Rat) = 70368744177664 := by rfl
  have hy : y ≤ 95 - 1 / 70368744177664 := by
    by_cases hc : y < 64
    · grind
    · obtain ⟨i, hi⟩ := rep_units hrep 46 (by rw [hp]; grind)
      rw [hp] at hi
      have : (i : Rat) < ((6685030696878080 : Nat) : Rat) := by
        have : ((6685030696878080 : Nat) : Rat) = 6685030696878080 := rfl
        grind
      have : i < 6685030696878080 := by exact_mod_cast this
      have : (i : Rat) ≤ ((6685030696878079 : Nat) : Rat) := by
        have : i ≤ 6685030696878079 := by omega
        exact_mod_cast this
      have : ((6685030696878079 : Nat) : Rat) = 6685030696878079 := rfl
      grind
  have hz1 : f.rnd (y + 32) ≤ 127 - 1 / 70368744177664 := by
    refine rnd_hi f (by grind) ?_ (by grind)
    refine rep_div 8936830510563327 46 (by omega) (by omega) ?_
    rw [hp]
    have : ((8936830510563327 : Nat) : Rat) = 8936830510563327 := rfl
    grind
  have hz2 : 32 ≤ f.rnd (y + 32) := rnd_lo f (by grind) (rep_nat (n := 32) (by omega)) (by grind)
  have e127 : ((127 : Int) : Rat) = 127 := rfl
  obtain ⟨i, hi, -, -, hle⟩ := trunc_some (m := 127) (x := f.rnd (y + 32)) (by grind) (by grind)
  refine ⟨i, hi, ?_, ?_⟩
  · unfold trunc at hi
    split at hi
    · cases hi
      exact Rat.le_floor_iff.2 hz2
    · cases hi
  · have : (i : Rat) < ((127 : Int) : Rat) := by grind
    exact_mod_cast this

private theorem drawInt_ok (f : Dbl) (u : Under) {r : Rat} (hr : InUnit r) :
    ∃ i, drawInt f u r = some i ∧ 0 ≤ i ∧ i ≤ maxOf u := by
  have key : ∀ (m : Int) (p : Rat), 0 ≤ m → Rep p → (m : Rat) ≤ p → Rep (p - p / 9007199254740992) →
      p - p / 9007199254740992 < (m : Rat) + 1 →
      ∃ i, trunc m (f.rnd (f.rnd (m : Rat) * r)) = some i ∧ 0 ≤ i ∧ i ≤ m := by
    intro m p hm hp hmp hp' hlt
    have hm0 : (0 : Rat) ≤ m := by exact_mod_cast hm
    have h1 := rnd_hi f hm0 hp hmp
    have h0 := rnd_nonneg f hm0
    obtain ⟨h2, -⟩ := mul_unit h0 hr
    have h3 : f.rnd (m : Rat) * r ≤ p * r := by
      have := Rat.mul_le_mul_of_nonneg_left h1 hr.2.1
      grind
    have h4 := (mul_unit (n := p) (by grind) hr).2
    have h5 := rnd_hi f h2 hp' (by grind)
    obtain ⟨i, hi, a, b, -⟩ := trunc_some (m := m) (rnd_nonneg f h2) (by grind)
    exact ⟨i, hi, a, b⟩
  have small : ∀ m : Nat, m < 4503599627370496 → ∃ i, trunc (m : Int) (f.rnd (f.rnd ((m : Int) : Rat) * r)) = some i ∧
      0 ≤ i ∧ i ≤ (m : Int) := by
    intro m hm
    have hc : ((m : Int) : Rat) = (m : Rat) := rfl
    have hm0 : (0 : Rat) ≤ m := by exact_mod_cast Nat.zero_le m
    rw [hc, rnd_eq f hm0 (rep_nat (by omega))]
    have h2 := mul_unit hm0 hr
    have h5 := rnd_hi f h2.1 (rep_nat (n := m) (by omega)) (by grind)
    obtain ⟨i, hi, a, b, -⟩ := trunc_some (m := (m : Int)) (rnd_nonneg f h2.1) (by rw [hc]; grind)
    exact ⟨i, hi, a, b⟩
  unfold drawInt
  rcases u with ⟨w, s⟩
  have e63 : ((9223372036854775807 : Int) : Rat) = 9223372036854775807 := rfl
  have e64 : ((18446744073709551615 : Int) : Rat) = 18446744073709551615 := rfl
  cases w <;> cases s
  · exact small 255 (by omega)
  · exact small 127 (by omega)
  · exact small 65535 (by omega)
  · exact small 32767 (by omega)
  · exact small 4294967295 (by omega)
  · exact small 2147483647 (by omega)
  · refine key 18446744073709551615 18446744073709551616 (by omega) ?_ (by grind) ?_ (by grind)
    · exact ⟨9007199254740992, 11, by omega, .inl ⟨by omega, by decide +kernel⟩⟩
    · exact ⟨9007199254740991, 11, by omega, .inl ⟨by omega, by decide +kernel⟩⟩
  · refine key 9223372036854775807 9223372036854775808 (by omega) ?_ (by grind) ?_ (by grind)
    · exact ⟨9007199254740992, 10, by omega, .inl ⟨by omega, by decide +kernel⟩⟩
    · exact ⟨9007199254740991, 10, by omega, .inl ⟨by omega, by decide +kernel⟩⟩

private theorem mput_len (k : Int) (v : Str) : ∀ m : List (Int × Str),
    m.length ≤ (mput ilt k v m).length ∧ 1 ≤ (mput ilt k v m).length ∧ (mput ilt k v m).length ≤ m.length + 1
  | [] => by simp [mput]
  | (k', v') :: r => by
    have := mput_len k v r
    simp only [mput]
    split
    · simp
    · split
      · simp; omega
      · simp

private theorem keys_len (l : List (Str × Int)) : ∀ k : Keys,
    k.v2s.length ≤ (l.foldl addKey k).v2s.length ∧ (l ≠ [] → 1 ≤ (l.foldl addKey k).v2s.length) ∧
      (l.foldl addKey k).v2s.length ≤ k.v2s.length + l.length := by
  induction l with
  | nil => intro k; simp
  | cons e l ih =>
    intro k
    have h1 := ih (addKey k e)
    have h2 := mput_len e.2 e.1 k.v2s
    have h3 : (addKey k e).v2s = mput ilt e.2 e.1 k.v2s := rfl
    rw [h3] at h1
    simp only [List.foldl_cons, List.length_cons]
    exact ⟨by omega, fun _ => by omega, by omega⟩

private theorem keys_len' (decl : List (Str × Int)) (h : decl ≠ []) :
    1 ≤ (mkKeys (keysData decl)).v2s.length ∧ (mkKeys (keysData decl)).v2s.length ≤ decl.length := by
  obtain ⟨-, h2, h3⟩ := keys_len (keysData decl) ⟨[], []⟩
  have hl : (keysData decl).length = decl.length := by simp [keysData]
  unfold mkKeys
  refine ⟨h2 ?_, ?_⟩
  · intro hc; rw [hc] at hl; simp at hl; exact h (List.length_eq_zero_iff.1 hl.symm)
  · rw [hl] at h3; simpa using h3

private theorem cast_int32 {i : Int} (h : InRange int32 i) : EnumKeys.cast int32 i = i := by
  simp only [InRange, int32, Width.modulus, if_true] at h
  simp only [EnumKeys.cast, int32, Width.modulus, if_true]
  omega

private theorem drawEnum_ok (f : Dbl) (decl : List (Str × Int)) (h : decl ≠ [])
    (hl : decl.length ≤ 2147483647) (hi : ∀ e ∈ decl, InRange int32 e.2) {r : Rat} (hr : InUnit r) :
    ∃ e ∈ decl, drawEnum f decl r = some e.2 := by
  obtain ⟨h1, h2⟩ := keys_len' decl h
  unfold drawEnum
  rw [rnd_eq f (by exact_mod_cast Nat.zero_le _) (rep_nat (by omega))]
  obtain ⟨i, hi', h0, hlt⟩ := draw_lt f h1 (by omega) hr
  rw [hi']
  have hlt' : i.toNat < decl.length := by omega
  refine ⟨decl[i.toNat], List.getElem_mem hlt', ?_⟩
  simp only [Option.bind_some, keysData, List.getElem?_map, List.getElem?_eq_getElem hlt', Option.map_some]
  rw [cast_int32 (hi _ (List.getElem_mem hlt'))]

/-! ### Objects -/

mutual
/-- Types the claim is made for: enumerations have enumerators, which fit `int`; the comparison of maps is
irreflexive. -/
def GoodT : RT → Prop
  | .enum decl => decl ≠ [] ∧ decl.length ≤ 2147483647 ∧ ∀ e ∈ decl, InRange int32 e.2
  | .seq t => GoodT t
  | .arr _ _ t => GoodT t
  | .pair a b => GoodT a ∧ GoodT b
  | .set _ t => GoodT t
  | .map lt _ t => (∀ k, lt k k = false) ∧ GoodT t
  | .ptr t => GoodT t
  | .ptrOld t => GoodT t
  | .struct fs => GoodS fs
  | _ => True

def GoodS : RTs → Prop
  | .nil => True
  | .cons t r => GoodT t ∧ GoodS r
end

/-- The parts of an object: members, elements and entries. -/
def part1 : RV → RV
  | .pair a _ => a
  | _ => .unit

def part2 : RV → RV
  | .pair _ b => b
  | _ => .unit

def items : RV → List RV
  | .seq l => l
  | _ => []

def stored : RV → List (RV × RV)
  | .map l => l
  | _ => []

mutual
/-- What an object that held `v` may hold after initialisation. -/
def Valid : RT → RV → RV → Prop
  | .bool, _, w => w = .int 0 ∨ w = .int 1
  | .int u, _, w => ∃ i, w = .int i ∧ 0 ≤ i ∧ i ≤ maxOf u
  | .char, _, w => ∃ i, w = .int i ∧ 32 ≤ i ∧ i < 127
  | .str, _, w => ∃ l, w = .str l ∧ l.length < 10 ∧ ∀ c ∈ l, 32 ≤ c ∧ c < 127
  | .enum decl, _, w => ∃ e ∈ decl, w = .int e.2
  | .keep, v, w => w = v
  | .seq t, v, w => ∃ l, w = .seq l ∧ l.length < 10 ∧
    ∀ (i : Nat) x, l[i]? = some x → Valid t ((items v)[i]?.getD (dflt t)) x
  | .arr _ _ t, v, w => ∃ l, w = .seq l ∧ l.length = (items v).length ∧
    ∀ (i : Nat) x y, (items v)[i]? = some x → l[i]? = some y → Valid t x y
  | .pair a b, v, w => ∃ x y, w = .pair x y ∧ Valid a (part1 v) x ∧ Valid b (part2 v) y
  | .set _ t, v, w => ∃ l, w = .map l ∧ (∀ e ∈ (stored v), e ∈ l) ∧ l.length < (stored v).length + 10 ∧
    ∀ e ∈ l, e ∈ (stored v) ∨ Valid t (dflt t) e.1 ∧ e.2 = .unit
  | .map _ key t, v, w => ∃ l, w = .map l ∧ (∀ e ∈ (stored v), e ∈ l) ∧ l.length ≤ (stored v).length + 1 ∧
    ∀ e ∈ l, e ∈ (stored v) ∨ e.1 = key ∧ Valid t (dflt t) e.2
  | .ptr t, _, w => ∃ x, w = .ptr x ∧ Valid t (dflt t) x
  | .ptrOld t, v, w => match v with
    | .ptr x => ∃ y, w = .ptr y ∧ Valid t x y
    | _ => w = v
  | .struct fs, v, w => ValidS fs v w

def ValidS : RTs → RV → RV → Prop
  | .nil, _, w => w = .unit
  | .cons t r, v, w => ∃ x y, w = .pair x y ∧ Valid t (part1 v) x ∧ ValidS r (part2 v) y
end

private theorem part1_eq (v : RV) : part1 v = v.fst := by cases v <;> rfl
private theorem part2_eq (v : RV) : part2 v = v.snd := by cases v <;> rfl
private theorem items_eq (v : RV) : items v = v.elems := by cases v <;> rfl
private theorem stored_eq (v : RV) : stored v = v.entries := by cases v <;> rfl

private theorem loop_ok {g : RV → Nat → Option (RV × Nat)} {P : RV → RV → Prop}
    (h : ∀ v n, ∃ w n', g v n = some (w, n') ∧ P v w) : ∀ (l : List RV) (n : Nat),
    ∃ l' n', loop g l n = some (l', n') ∧ l'.length = l.length ∧
      ∀ (i : Nat) x y, l[i]? = some x → l'[i]? = some y → P x y
  | [], n => ⟨[], n, rfl, rfl, by simp⟩
  | v :: l, n => by
    obtain ⟨w, n1, h1, h2⟩ := h v n
    obtain ⟨l', n', h3, h4, h5⟩ := loop_ok h l n1
    refine ⟨w :: l', n', by simp [loop, h1, h3], by simp [h4], ?_⟩
    intro i x y hx hy
    cases i with
    | zero => simp at hx hy; subst hx hy; exact h2
    | succ i => exact h5 i x y (by simpa using hx) (by simpa using hy)

private theorem loopChar_ok (f : Dbl) (s : Gen) (hs : ∀ n, InUnit (s n)) : ∀ k n,
    ∃ l n', loopChar f s k n = some (l, n') ∧ l.length = k ∧ ∀ c ∈ l, 32 ≤ c ∧ c < 127
  | 0, n => ⟨[], n, rfl, rfl, by simp⟩
  | k + 1, n => by
    obtain ⟨c, h1, h2⟩ := drawChar_ok f (hs n)
    obtain ⟨l, n', h3, h4, h5⟩ := loopChar_ok f s hs k (n + 1)
    refine ⟨c :: l, n', by simp [loopChar, h1, h3], by simp [h4], ?_⟩
    intro d hd
    rcases List.mem_cons.1 hd with rfl | hd
    · exact h2
    · exact h5 d hd

private theorem mem_ins {lt : RV → RV → Bool} {k v : RV} : ∀ (l : List (RV × RV)) (e : RV × RV),
    (e ∈ l → e ∈ minsert lt k v l) ∧ (e ∈ minsert lt k v l → e ∈ l ∨ e = (k, v))
  | [], e => by simp [minsert]
  | p :: r, e => by
    obtain ⟨k', v'⟩ := p
    have := mem_ins (lt := lt) (k := k) (v := v) r e
    simp only [minsert]
    split
    · simp only [List.mem_cons]
      grind
    · split
      · simp only [List.mem_cons]; grind
      · simp only [List.mem_cons]; grind

private theorem len_ins {lt : RV → RV → Bool} {k v : RV} : ∀ (l : List (RV × RV)),
    (minsert lt k v l).length ≤ l.length + 1
  | [] => by simp [minsert]
  | p :: r => by
    have := len_ins (lt := lt) (k := k) (v := v) r
    simp only [minsert]
    split
    · simp
    · split
      · simp; omega
      · simp

private theorem ins_ins {lt : RV → RV → Bool} (hi : ∀ k, lt k k = false) {k v w : RV} : ∀ (l : List (RV × RV)),
    minsert lt k v (minsert lt k w l) = minsert lt k w l
  | [] => by simp [minsert, hi]
  | p :: r => by
    have := ins_ins hi (k := k) (v := v) (w := w) r
    obtain ⟨k', v'⟩ := p
    cases h1 : lt k k' with
    | true => simp [minsert, h1, hi]
    | false =>
      cases h2 : lt k' k with
      | true => simp [minsert, h1, h2, this]
      | false => simp [minsert, h1, h2]

private theorem loopIns_set {g : Nat → Option (RV × Nat)} {P : RV → Prop} {lt : RV → RV → Bool}
    (h : ∀ n, ∃ w n', g n = some (w, n') ∧ P w) : ∀ (k : Nat) (l : List (RV × RV)) (n : Nat),
    ∃ l' n', loopIns g (fun x l => minsert lt x .unit l) k l n = some (l', n') ∧ (∀ e ∈ l, e ∈ l') ∧
      l'.length ≤ l.length + k ∧ ∀ e ∈ l', e ∈ l ∨ P e.1 ∧ e.2 = .unit
  | 0, l, n => ⟨l, n, rfl, fun _ h => h, by omega, fun _ h => .inl h⟩
  | k + 1, l, n => by
    obtain ⟨w, n1, h1, h2⟩ := h n
    obtain ⟨l', n', h3, h4, h5, h6⟩ := loopIns_set (lt := lt) h k (minsert lt w .unit l) n1
    refine ⟨l', n', by simp [loopIns, h1, h3], fun e he => h4 e ((mem_ins l e).1 he), ?_, ?_⟩
    · have := len_ins (lt := lt) (k := w) (v := .unit) l; omega
    · intro e he
      rcases h6 e he with he | he
      · rcases (mem_ins l e).2 he with he | rfl
        · exact .inl he
        · exact .inr ⟨h2, rfl⟩
      · exact .inr he

private theorem loopIns_map {g : Nat → Option (RV × Nat)} {P : RV → Prop} {lt : RV → RV → Bool}
    (hi : ∀ k, lt k k = false) {key : RV}
    (h : ∀ n, ∃ w n', g n = some (w, n') ∧ P w) : ∀ (k : Nat) (l : List (RV × RV)) (n : Nat),
    ∃ l' n', loopIns g (fun x l => minsert lt key x l) k l n = some (l', n') ∧
      (l' = l ∨ ∃ w, P w ∧ l' = minsert lt key w l)
  | 0, l, n => ⟨l, n, rfl, .inl rfl⟩
  | k + 1, l, n => by
    obtain ⟨w, n1, h1, h2⟩ := h n
    obtain ⟨l', n', h3, h4⟩ := loopIns_map hi (key := key) h k (minsert lt key w l) n1
    refine ⟨l', n', by simp [loopIns, h1, h3], .inr ⟨w, h2, ?_⟩⟩
    rcases h4 with h4 | ⟨w', -, h4⟩
    · exact h4
    · rw [h4, ins_ins hi]

private theorem resize_get (d : RV) (k : Nat) (l : List RV) (i : Nat) (hi : i < k) :
    (resize d k l)[i]? = some (l[i]?.getD d) := by
  unfold resize
  by_cases h : i < l.length
  · rw [List.getElem?_append_left (by simp; omega), List.getElem?_take_of_lt hi]
    simp [List.getElem?_eq_getElem h]
  · rw [List.getElem?_append_right (by simp; omega)]
    rw [List.getElem?_replicate]
    simp [List.getElem?_eq_none (by omega : l.length ≤ i)]
    omega

private theorem resize_len (d : RV) (k : Nat) (l : List RV) : (resize d k l).length = k := by
  simp [resize]; omega

mutual
private theorem init_ok (f : Dbl) (s : Gen) (hs : ∀ n, InUnit (s n)) : ∀ (t : RT), GoodT t → ∀ (v : RV) (n : Nat),
    ∃ w n', init f s t v n = some (w, n') ∧ Valid t v w
  | .bool, _, v, n => by
    simp only [init, Valid]
    refine ⟨_, _, rfl, ?_⟩
    split
    · exact .inr rfl
    · exact .inl rfl
  | .int u, _, v, n => by
    obtain ⟨i, h1, h2, h3⟩ := drawInt_ok f u (hs n)
    exact ⟨.int i, n + 1, by simp [init, h1], by simp only [Valid, part1_eq, part2_eq, items_eq, stored_eq]; exact ⟨i, rfl, h2, h3⟩⟩
  | .char, _, v, n => by
    obtain ⟨i, h1, h2⟩ := drawChar_ok f (hs n)
    exact ⟨.int i, n + 1, by simp [init, h1], by simp only [Valid, part1_eq, part2_eq, items_eq, stored_eq]; exact ⟨i, rfl, h2⟩⟩
  | .str, _, v, n => by
    obtain ⟨k, h1, h2, h3⟩ := drawSize_ok f (hs n)
    obtain ⟨l, n', h4, h5, h6⟩ := loopChar_ok f s hs k.toNat (n + 1)
    exact ⟨.str l, n', by simp [init, h1, h4], by simp only [Valid, part1_eq, part2_eq, items_eq, stored_eq]; exact ⟨l, rfl, by omega, h6⟩⟩
  | .enum decl, h, v, n => by
    simp only [GoodT] at h
    obtain ⟨e, he, h1⟩ := drawEnum_ok f decl h.1 h.2.1 h.2.2 (hs n)
    exact ⟨.int e.2, n + 1, by simp [init, h1], by simp only [Valid, part1_eq, part2_eq, items_eq, stored_eq]; exact ⟨e, he, rfl⟩⟩
  | .keep, _, v, n => ⟨v, n, by simp [init], by simp only [Valid, part1_eq, part2_eq, items_eq, stored_eq]⟩
  | .seq t, h, v, n => by
    simp only [GoodT] at h
    obtain ⟨k, h1, h2, h3⟩ := drawSize_ok f (hs n)
    obtain ⟨l, n', h4, h5, h6⟩ := loop_ok (P := Valid t) (fun v n => init_ok f s hs t h v n)
      (resize (dflt t) k.toNat v.elems) (n + 1)
    rw [resize_len] at h5
    refine ⟨.seq l, n', by simp [init, h1, h4], ?_⟩
    simp only [Valid, part1_eq, part2_eq, items_eq, stored_eq]
    refine ⟨l, rfl, by omega, fun i x hx => ?_⟩
    have hi : i < k.toNat := by
      rw [← h5]
      exact (List.getElem?_eq_some_iff.1 hx).1
    exact h6 i _ x (resize_get _ _ _ _ hi) hx
  | .arr std k t, h, v, n => by
    simp only [GoodT] at h
    obtain ⟨n', hn⟩ : ∃ n', (if std then (drawSize f (s n)).map fun _ => n + 1 else some n) = some n' := by
      obtain ⟨k, h1, -⟩ := drawSize_ok f (hs n)
      cases std
      · exact ⟨n, by simp⟩
      · exact ⟨n + 1, by simp [h1]⟩
    obtain ⟨l, n', h4, h5, h6⟩ := loop_ok (P := Valid t) (fun v n => init_ok f s hs t h v n) v.elems n'
    refine ⟨.seq l, n', by simp [init, hn, h4], ?_⟩
    simp only [Valid, part1_eq, part2_eq, items_eq, stored_eq]
    exact ⟨l, rfl, h5, h6⟩
  | .pair a b, h, v, n => by
    simp only [GoodT] at h
    obtain ⟨x, n1, h1, h2⟩ := init_ok f s hs a h.1 v.fst n
    obtain ⟨y, n2, h3, h4⟩ := init_ok f s hs b h.2 v.snd n1
    refine ⟨.pair x y, n2, by simp [init, h1, h3], ?_⟩
    simp only [Valid, part1_eq, part2_eq, items_eq, stored_eq]
    exact ⟨x, y, rfl, h2, h4⟩
  | .set lt t, h, v, n => by
    simp only [GoodT] at h
    obtain ⟨k, h1, h2, h3⟩ := drawSize_ok f (hs n)
    obtain ⟨l, n', h4, h5, h6, h7⟩ := loopIns_set (lt := lt) (P := Valid t (dflt t))
      (fun n => init_ok f s hs t h (dflt t) n) k.toNat v.entries (n + 1)
    refine ⟨.map l, n', by simp [init, h1, h4], ?_⟩
    simp only [Valid, part1_eq, part2_eq, items_eq, stored_eq]
    exact ⟨l, rfl, h5, by omega, h7⟩
  | .map lt key t, h, v, n => by
    simp only [GoodT] at h
    obtain ⟨k, h1, h2, h3⟩ := drawSize_ok f (hs n)
    obtain ⟨l, n', h4, h5⟩ := loopIns_map h.1 (key := key) (P := Valid t (dflt t))
      (fun n => init_ok f s hs t h.2 (dflt t) n) k.toNat v.entries (n + 1)
    refine ⟨.map l, n', by simp [init, h1, h4], ?_⟩
    simp only [Valid, part1_eq, part2_eq, items_eq, stored_eq]
    refine ⟨l, rfl, ?_⟩
    rcases h5 with rfl | ⟨w, hw, rfl⟩
    · exact ⟨fun _ h => h, by omega, fun _ h => .inl h⟩
    · refine ⟨fun e he => (mem_ins _ e).1 he, len_ins _, fun e he => ?_⟩
      rcases (mem_ins _ e).2 he with he | rfl
      · exact .inl he
      · exact .inr ⟨rfl, hw⟩
  | .ptr t, h, v, n => by
    simp only [GoodT] at h
    obtain ⟨x, n', h1, h2⟩ := init_ok f s hs t h (dflt t) n
    refine ⟨.ptr x, n', by simp [init, h1], ?_⟩
    simp only [Valid, part1_eq, part2_eq, items_eq, stored_eq]
    exact ⟨x, rfl, h2⟩
  | .ptrOld t, h, v, n => by
    simp only [GoodT] at h
    simp only [init, Valid]
    cases v with
    | ptr x =>
      obtain ⟨y, n', h1, h2⟩ := init_ok f s hs t h x n
      exact ⟨.ptr y, n', by simp [h1], y, rfl, h2⟩
    | _ => exact ⟨_, n, rfl, rfl⟩
  | .struct fs, h, v, n => by
    simp only [GoodT] at h
    simp only [init, Valid]
    exact initS_ok f s hs fs h v n

private theorem initS_ok (f : Dbl) (s : Gen) (hs : ∀ n, InUnit (s n)) : ∀ (t : RTs), GoodS t → ∀ (v : RV) (n : Nat),
    ∃ w n', initS f s t v n = some (w, n') ∧ ValidS t v w
  | .nil, _, v, n => ⟨.unit, n, by simp [initS], by simp only [ValidS, part1_eq, part2_eq]⟩
  | .cons t r, h, v, n => by
    simp only [GoodS] at h
    obtain ⟨x, n1, h1, h2⟩ := init_ok f s hs t h.1 v.fst n
    obtain ⟨y, n2, h3, h4⟩ := initS_ok f s hs r h.2 v.snd n1
    refine ⟨.pair x y, n2, by simp [initS, h1, h3], ?_⟩
    simp only [ValidS, part1_eq, part2_eq]
    exact ⟨x, y, rfl, h2, h4⟩
end

/-- C77, for a generator that keeps the promise of `rand()`: no undefined behaviour, and every part of the
object holds a valid value afterwards.  Of maps it says less than the claim, see `C77_map_fails`. -/
theorem C77_valid_partial (f : Dbl) (s : Gen) (hs : ∀ n, InUnit (s n)) (t : RT) (ht : GoodT t) (v : RV) (n : Nat) :
    ∃ w n', init f s t v n = some (w, n') ∧ Valid t v w := init_ok f s hs t ht v n

/-- The generator of the library keeps it exactly if `std::rand()` does not return its maximum. -/
theorem C77_default_rand (f : Dbl) (M n : Nat) (hM : 0 < M) (hM' : M ≤ 4503599627370496) (hn : n ≤ M) :
    (InUnit (defaultRand f M n) ↔ n ≠ M) ∧ (n = M → defaultRand f M n = 1) := by
  have hM0 : (0 : Rat) < M := by exact_mod_cast hM
  have h1 : n = M → defaultRand f M n = 1 := by
    rintro rfl
    unfold defaultRand
    have : (n : Rat) / n = ((1 : Nat) : Rat) := by
      have : ((1 : Nat) : Rat) = 1 := rfl
      grind
    rw [this, rnd_eq f (by decide) (rep_nat (by omega))]; rfl
  refine ⟨⟨fun h he => ?_, fun h => ?_⟩, h1⟩
  · have := h.2.2
    rw [h1 he] at this
    exact absurd this (by decide)
  · have hn0 : (0 : Rat) ≤ n := by exact_mod_cast Nat.zero_le n
    have hx0 : (0 : Rat) ≤ (n : Rat) / M := by
      rw [Rat.div_def]
      exact Rat.mul_nonneg hn0 (Rat.le_of_lt (Rat.inv_pos.2 hM0))
    refine ⟨f.rep _ hx0, rnd_nonneg f hx0, ?_⟩
    have hrep : Rep (1 - 1 / 9007199254740992) :=
      ⟨9007199254740991, 53, by omega, .inr ⟨by omega, by decide +kernel⟩⟩
    have hle : (n : Rat) / M ≤ 1 - 1 / 9007199254740992 := by
      have h2 : (n : Rat) ≤ (M : Rat) - 1 := by
        have : n + 1 ≤ M := by omega
        have : ((n + 1 : Nat) : Rat) ≤ M := by exact_mod_cast this
        rw [Rat.natCast_add] at this
        have : ((1 : Nat) : Rat) = 1 := rfl
        grind
      have h3 : (M : Rat) ≤ 4503599627370496 := by
        have : (M : Rat) ≤ ((4503599627370496 : Nat) : Rat) := by exact_mod_cast hM'
        exact this
      exact Rat.le_of_lt ((Rat.div_lt_iff hM0).2 (by grind))
    have := rnd_hi f hx0 hrep hle
    have e : (1 : Rat) - 1 / 9007199254740992 < 1 := by decide +kernel
    unfold defaultRand
    exact Std.lt_of_le_of_lt this e

/-- Every whole number below `n` can be drawn. -/
private theorem draw_reach (f : Dbl) {n k : Nat} (hk : k < n) (hb : n ≤ 2147483647) :
    ∃ r, InUnit r ∧ trunc 2147483647 (f.rnd (n * r)) = some (k : Int) := by
  have hn0 : (0 : Rat) < n := by have : 0 < n := by omega
                                 exact_mod_cast this
  have hk0 : (0 : Rat) ≤ k := by exact_mod_cast Nat.zero_le k
  have hkn : (k : Rat) + 1 ≤ n := by
    have : ((k + 1 : Nat) : Rat) ≤ n := by exact_mod_cast hk
    rw [Rat.natCast_add] at this; exact this
  have hb' : (n : Rat) ≤ 2147483647 := by
    have : (n : Rat) ≤ ((2147483647 : Nat) : Rat) := by exact_mod_cast hb
    exact this
  obtain ⟨x, hx⟩ : ∃ x : Rat, x * n = k + 1 / 2 := ⟨(k + 1 / 2) / n, by grind⟩
  have hx0 : 0 ≤ x := by
    have : (0 : Rat) ≤ (k + 1 / 2) / n := by
      rw [Rat.div_def]; exact Rat.mul_nonneg (by grind) (Rat.le_of_lt (Rat.inv_pos.2 hn0))
    have : x = (k + 1 / 2) / n := by grind
    grind
  have hx1 : x < 1 - 1 / 9007199254740992 := by
    have : x = (k + 1 / 2) / n := by grind
    rw [this]
    exact (Rat.div_lt_iff hn0).2 (by grind)
  -- a representable number near `x`
  obtain ⟨y, hy, hyx, hxy⟩ : ∃ y, Rep y ∧ y ≤ x ∧ x < y + 1 / 9007199254740992 := by
    have h0 := floor_nonneg (x := x * 9007199254740992) (by grind)
    have h1 := Rat.floor_le (x * 9007199254740992)
    have h2 := Rat.lt_floor (x := x * 9007199254740992)
    obtain ⟨m, hm⟩ := Int.eq_ofNat_of_zero_le h0
    rw [hm] at h1 h2
    have hc : ((m : Int) : Rat) = (m : Rat) := rfl
    rw [hc] at h1 h2
    refine ⟨(m : Rat) / 9007199254740992, rep_div m 53 ?_ (by omega) ?_, by grind, by grind⟩
    · have : (m : Rat) ≤ ((9007199254740992 : Nat) : Rat) := by
        have : ((9007199254740992 : Nat) : Rat) = 9007199254740992 := rfl
        grind
      exact_mod_cast this
    · rw [show ((2 ^ 53 : Nat) : Rat) = 9007199254740992 by rfl]; grind
  have hnear := f.near x y hx0 hy
  have hrep : Rep (1 - 1 / 9007199254740992) :=
    ⟨9007199254740991, 53, by omega, .inr ⟨by omega, by decide +kernel⟩⟩
  have hup := rnd_hi f hx0 hrep (by grind)
  have hr0 := rnd_nonneg f hx0
  have hr : InUnit (f.rnd x) := ⟨f.rep x hx0, hr0, by grind⟩
  refine ⟨f.rnd x, hr, ?_⟩
  have hd1 : x - 1 / 9007199254740992 ≤ f.rnd x ∧ f.rnd x ≤ x + 1 / 9007199254740992 := by
    unfold dist at hnear; grind
  generalize f.rnd x = r at *
  have hl1 : (k : Rat) + 1 / 4 ≤ n * r := by
    have := Rat.mul_le_mul_of_nonneg_left hd1.1 (Rat.le_of_lt hn0)
    grind
  have hl2 : n * r ≤ (k : Rat) + 3 / 4 := by
    have := Rat.mul_le_mul_of_nonneg_left hd1.2 (Rat.le_of_lt hn0)
    grind
  have h1 : (k : Rat) ≤ f.rnd (n * r) := rnd_lo f (by grind) (rep_nat (by omega)) (by grind)
  have h2 : f.rnd (n * r) ≤ (k : Rat) + 3 / 4 := by
    refine rnd_hi f (by grind) (rep_div (4 * k + 3) 2 (by omega) (by omega) ?_) hl2
    rw [Rat.natCast_add, Rat.natCast_mul]
    have : ((2 ^ 2 : Nat) : Rat) = 4 := rfl
    have : ((4 : Nat) : Rat) = 4 := rfl
    have : ((3 : Nat) : Rat) = 3 := rfl
    grind
  have hf : (f.rnd (n * r)).floor = (k : Int) := by
    have a : (k : Int) ≤ (f.rnd (n * r)).floor := Rat.le_floor_iff.2 h1
    have b : (f.rnd (n * r)).floor < (k : Int) + 1 := Rat.floor_lt_iff.2 (by
      rw [Rat.intCast_add]
      have : ((k : Int) : Rat) = (k : Rat) := rfl
      have : ((1 : Int) : Rat) = 1 := rfl
      grind)
    omega
  simp only [trunc, hf]
  rw [if_pos (by omega)]

/-- Every enumerator of an enumeration without aliases can be drawn. -/
theorem C77_enum_reach (f : Dbl) (decl : List (Str × Int))
    (hd : (mkKeys (keysData decl)).v2s.length = decl.length) (hl : decl.length ≤ 2147483647)
    (hi : ∀ e ∈ decl, InRange int32 e.2) (e : Str × Int) (he : e ∈ decl) (v : RV) :
    ∃ r, InUnit r ∧ init f (fun _ => r) (.enum decl) v 0 = some (.int e.2, 1) := by
  obtain ⟨k, hk, rfl⟩ := List.getElem_of_mem he
  obtain ⟨r, hr, h⟩ := draw_reach f hk hl
  refine ⟨r, hr, ?_⟩
  simp only [init, drawEnum, hd]
  rw [rnd_eq f (by exact_mod_cast Nat.zero_le _) (rep_nat (by omega)), h]
  simp only [Option.bind_some, Int.toNat_natCast, keysData, List.getElem?_map, List.getElem?_eq_getElem hk,
    Option.map_some]
  rw [cast_int32 (hi _ he)]

/-- Sequences of every length up to nine can be drawn, whatever comes next. -/
theorem C77_size_reach (f : Dbl) (t : RT) (ht : GoodT t) (k : Nat) (hk : k < 10) (s : Gen)
    (hs : ∀ n, InUnit (s n)) (v : RV) :
    ∃ r, InUnit r ∧ ∃ l n', init f (fun n => if n = 0 then r else s n) (.seq t) v 0 = some (.seq l, n') ∧
      l.length = k := by
  obtain ⟨r, hr, h⟩ := draw_reach f (n := 10) hk (by omega)
  refine ⟨r, hr, ?_⟩
  have hs' : ∀ n, InUnit ((fun n => if n = 0 then r else s n) n) := by
    intro n; by_cases hn : n = 0 <;> simp [hn, hr, hs]
  obtain ⟨l, n', h4, h5, -⟩ := loop_ok (P := Valid t) (fun v n => init_ok f _ hs' t ht v n)
      (resize (dflt t) k v.elems) 1
  rw [resize_len] at h5
  refine ⟨l, n', ?_, h5⟩
  have h' : drawSize f r = some (k : Int) := h
  simp [init, h', h4]

/-! ### Where the claim is false -/

/-- When `std::rand()` returns its maximum, an enumeration reads behind its table, for every enumeration
whose enumerators differ. -/
theorem C77_enum_fails (f : Dbl) (M : Nat) (hM : 0 < M) (hM' : M ≤ 4503599627370496) (decl : List (Str × Int))
    (hd : (mkKeys (keysData decl)).v2s.length = decl.length) (hl : decl.length ≤ 2147483647) (v : RV) :
    init f (fun _ => defaultRand f M M) (.enum decl) v 0 = none := by
  have hr : (0 : Rat) ≤ (decl.length : Rat) := by exact_mod_cast Nat.zero_le _
  have hrep := rep_nat (n := decl.length) (by omega)
  simp only [init, drawEnum, (C77_default_rand f M M hM hM' (Nat.le_refl _)).2 rfl, Rat.mul_one, hd, rnd_eq f hr hrep]
  have : trunc 2147483647 (decl.length : Rat) = some (decl.length : Int) := by
    have hf : (decl.length : Rat).floor = (decl.length : Int) := Rat.floor_intCast _
    simp only [trunc, hf]
    rw [if_pos (by omega)]
  rw [this]
  simp only [Option.bind_some, Int.toNat_natCast]
  rw [List.getElem?_eq_none (by simp [keysData])]
  rfl

/-- Whole multiples of 2^10 only, from 2^62. -/
private theorem rep_big {z : Rat} (h : Rep z) (hz : 4611686018427387904 < z) : ∃ i : Nat, z = (i : Rat) * 1024 := by
  obtain ⟨m, k, hm, ⟨-, h⟩ | ⟨-, h⟩⟩ := h
  · have hm' : (m : Rat) ≤ 9007199254740992 := by exact_mod_cast hm
    by_cases hk : k < 10
    · exfalso
      have : 2 ^ k ≤ 2 ^ 9 := Nat.pow_le_pow_right (by omega) (by omega)
      have h1 : m * 2 ^ k ≤ 9007199254740992 * 2 ^ 9 := Nat.mul_le_mul hm this
      have h2 : ((m * 2 ^ k : Nat) : Rat) ≤ ((9007199254740992 * 2 ^ 9 : Nat) : Rat) := by exact_mod_cast h1
      rw [Rat.natCast_mul] at h2
      have : ((9007199254740992 * 2 ^ 9 : Nat) : Rat) = 4611686018427387904 := by rfl
      grind
    · refine ⟨m * 2 ^ (k - 10), ?_⟩
      have := cast_pow_add (k - 10) 10
      rw [show k - 10 + 10 = k by omega, show ((2 ^ 10 : Nat) : Rat) = 1024 by rfl] at this
      rw [h, this, Rat.natCast_mul]; grind
  · exfalso
    have hm' : (m : Rat) ≤ 9007199254740992 := by exact_mod_cast hm
    have := Rat.mul_le_mul_of_nonneg_left (c := z) (cast_pos k) (by grind)
    grind

/-- And integers of 64 bits are converted from a number that does not fit. -/
theorem C77_int64_fails (f : Dbl) (M : Nat) (hM : 0 < M) (hM' : M ≤ 4503599627370496) (sg : Bool) (v : RV) :
    init f (fun _ => defaultRand f M M) (.int ⟨.w64, sg⟩) v 0 = none := by
  have key : ∀ p : Nat, 9223372036854775808 ≤ p → p ≤ 18446744073709551616 → p % 1024 = 0 → Rep (p : Rat) →
      trunc ((p : Int) - 1) (f.rnd (f.rnd (((p : Int) - 1 : Int) : Rat))) = none := by
    intro p h1 h2 hmod hp
    have e1 : (((p : Int) - 1 : Int) : Rat) = (p : Rat) - 1 := by rw [Rat.intCast_sub]; rfl
    have h1' : (9223372036854775808 : Rat) ≤ p := by
      have : ((9223372036854775808 : Nat) : Rat) ≤ p := by exact_mod_cast h1
      exact this
    rw [e1]
    have hr := f.rep ((p : Rat) - 1) (by grind)
    have hn := f.near ((p : Rat) - 1) p (by grind) hp
    have hle := rnd_hi f (x := (p : Rat) - 1) (by grind) hp (by grind)
    have hge : (p : Rat) - 2 ≤ f.rnd ((p : Rat) - 1) := by
      unfold dist at hn; grind
    obtain ⟨i, hi⟩ := rep_big hr (by grind)
    have hp' : f.rnd ((p : Rat) - 1) = p := by
      have a1 : ((i * 1024 : Nat) : Rat) ≤ (p : Rat) := by rw [Rat.natCast_mul]; grind
      have a2 : (p : Rat) ≤ ((i * 1024 + 2 : Nat) : Rat) := by
        rw [Rat.natCast_add, Rat.natCast_mul]
        have : ((2 : Nat) : Rat) = 2 := rfl
        have : ((1024 : Nat) : Rat) = 1024 := rfl
        grind
      have a1' : i * 1024 ≤ p := by exact_mod_cast a1
      have a2' : p ≤ i * 1024 + 2 := by exact_mod_cast a2
      have : p = i * 1024 := by omega
      rw [hi, this, Rat.natCast_mul]; rfl
    rw [hp', rnd_eq f (by grind) hp]
    have hf : (p : Rat).floor = (p : Int) := Rat.floor_intCast _
    unfold trunc
    rw [hf, if_neg (by omega)]
  simp only [init, drawInt, (C77_default_rand f M M hM hM' (Nat.le_refl _)).2 rfl, Rat.mul_one]
  cases sg
  · have := key 18446744073709551616 (by omega) (by omega) (by omega)
      ⟨9007199254740992, 11, by omega, .inl ⟨by omega, by decide +kernel⟩⟩
    exact congrArg _ this
  · have := key 9223372036854775808 (by omega) (by omega) (by omega)
      ⟨9007199254740992, 10, by omega, .inl ⟨by omega, by decide +kernel⟩⟩
    exact congrArg _ this

/-- Characters then become DEL, which is not printable. -/
theorem C77_char_fails (f : Dbl) (M : Nat) (hM : 0 < M) (hM' : M ≤ 4503599627370496) (v : RV) :
    init f (fun _ => defaultRand f M M) .char v 0 = some (.int 127, 1) := by
  simp only [init, drawChar, (C77_default_rand f M M hM hM' (Nat.le_refl _)).2 rfl, Rat.mul_one]
  have e95 : f.rnd 95 = 95 := rnd_eq f (by decide) (rep_nat (n := 95) (by omega))
  rw [e95, show (95 : Rat) + 32 = ((127 : Nat) : Rat) by decide +kernel,
    rnd_eq f (by decide) (rep_nat (n := 127) (by omega))]
  rfl

/-- The keys of maps are never initialised, so that an empty map gets at most one entry, whose key is that of
a default constructed object. -/
theorem C77_map_fails (f : Dbl) (s : Gen) (hs : ∀ n, InUnit (s n)) (lt : RV → RV → Bool) (hi : ∀ k, lt k k = false)
    (key : RV) (t : RT) (ht : GoodT t) (n : Nat) :
    ∃ l n', init f s (.map lt key t) (.map []) n = some (.map l, n') ∧ l.length ≤ 1 ∧ ∀ e ∈ l, e.1 = key := by
  obtain ⟨w, n', h1, h2⟩ := C77_valid_partial f s hs (.map lt key t) (by simp only [GoodT]; exact ⟨hi, ht⟩) (.map []) n
  simp only [Valid, part1_eq, part2_eq, items_eq, stored_eq] at h2
  obtain ⟨l, rfl, -, h3, h4⟩ := h2
  refine ⟨l, n', h1, by simpa [RV.entries] using h3, fun e he => ?_⟩
  rcases h4 e he with h | h
  · simp [RV.entries] at h
  · exact h.1

namespace C77
/-- `enum {a, b=0, c=1}`. -/
def aliased : List (Str × Int) := [([97], 0), ([98], 0), ([99], 1)]
end C77

/-- If enumerators share a value the last ones are never drawn. -/
theorem C77_alias_fails (f : Dbl) (r : Rat) (hr : InUnit r) (v : RV) :
    init f (fun _ => r) (.enum C77.aliased) v 0 = some (.int 0, 1) := by
  have hl : (mkKeys (keysData C77.aliased)).v2s.length = 2 := by decide +kernel
  have e2 : f.rnd ((2 : Nat) : Rat) = ((2 : Nat) : Rat) := rnd_eq f (by decide) (rep_nat (n := 2) (by omega))
  obtain ⟨i, h1, h2, h3⟩ := draw_lt f (n := 2) (by omega) (by omega) hr
  simp only [init, drawEnum, hl, e2, h1, Option.bind_some]
  have : i = 0 ∨ i = 1 := by omega
  rcases this with rfl | rfl <;> rfl

/-! ### Concrete cases -/

private theorem argmin (g : Rat → Rat) : ∀ l : List Rat, l ≠ [] → ∃ z ∈ l, ∀ y ∈ l, g z ≤ g y
  | [], h => absurd rfl h
  | [a], _ => ⟨a, by simp, by simp⟩
  | a :: b :: r, _ => by
    obtain ⟨z, hz, h⟩ := argmin g (b :: r) (by simp)
    by_cases hc : g a ≤ g z
    · refine ⟨a, by simp, fun y hy => ?_⟩
      rcases List.mem_cons.1 hy with rfl | hy
      · grind
      · have := h y hy; grind
    · refine ⟨z, List.mem_cons_of_mem _ hz, fun y hy => ?_⟩
      rcases List.mem_cons.1 hy with rfl | hy
      · grind
      · exact h y hy

private theorem rep_list : ∃ l : List Rat, l ≠ [] ∧ ∀ y, Rep y ↔ y ∈ l := by
  refine ⟨(List.range 9007199254740993).flatMap (fun m : Nat =>
    (List.range 972).map (fun k => (m : Rat) * ((2 ^ k : Nat) : Rat)) ++
    (List.range 1075).map (fun k => (m : Rat) / ((2 ^ k : Nat) : Rat))), ?_, fun y => ?_⟩
  · intro h
    have := (List.flatMap_eq_nil_iff.1 h) 0 (List.mem_range.2 (by omega))
    simp at this
  · rw [List.mem_flatMap]
    constructor
    · rintro ⟨m, k, hm, h⟩
      refine ⟨m, List.mem_range.2 (by omega), List.mem_append.2 ?_⟩
      rcases h with ⟨hk, h⟩ | ⟨hk, h⟩
      · exact .inl (List.mem_map.2 ⟨k, List.mem_range.2 (by omega), h.symm⟩)
      · refine .inr (List.mem_map.2 ⟨k, List.mem_range.2 (by omega), ?_⟩)
        have := cast_pos k
        generalize ((2 ^ k : Nat) : Rat) = K at *
        grind
    · rintro ⟨m, hm, h⟩
      have hm := List.mem_range.1 hm
      rcases List.mem_append.1 h with h | h
      · obtain ⟨k, hk, rfl⟩ := List.mem_map.1 h
        have := List.mem_range.1 hk
        exact ⟨m, k, by omega, .inl ⟨by omega, rfl⟩⟩
      · obtain ⟨k, hk, rfl⟩ := List.mem_map.1 h
        have := List.mem_range.1 hk
        refine ⟨m, k, by omega, .inr ⟨by omega, ?_⟩⟩
        have := cast_pos k
        generalize ((2 ^ k : Nat) : Rat) = K at *
        grind

/-- The format has a rounding to nearest. -/
theorem C77_rounding_exists : Nonempty Dbl := by
  obtain ⟨l, hl, h⟩ := rep_list
  have : ∀ x : Rat, ∃ z, Rep z ∧ ∀ y, Rep y → dist x z ≤ dist x y := by
    intro x
    obtain ⟨z, hz, hm⟩ := argmin (dist x) l hl
    exact ⟨z, (h z).2 hz, fun y hy => hm y ((h y).1 hy)⟩
  exact ⟨⟨fun x => (this x).choose, fun x _ => (this x).choose_spec.1, fun x y _ hy => (this x).choose_spec.2 y hy⟩⟩

private theorem half_unit : InUnit (1 / 2) :=
  ⟨⟨1, 1, by omega, .inr ⟨by omega, by decide +kernel⟩⟩, by decide +kernel, by decide +kernel⟩

/-- A class with an enumeration, a vector of strings, a map and a 64 bit integer. -/
example (f : Dbl) : ∃ w n', init f (fun _ => 1 / 2) (.struct (.cons (.enum C77.aliased) (.cons (.seq .str)
    (.cons (.map (fun _ _ => false) (.int 0) .bool) (.cons (.int ⟨.w64, true⟩) .nil))))) .unit 0 = some (w, n') ∧
    Valid (.struct (.cons (.enum C77.aliased) (.cons (.seq .str)
    (.cons (.map (fun _ _ => false) (.int 0) .bool) (.cons (.int ⟨.w64, true⟩) .nil))))) .unit w :=
  C77_valid_partial f _ (fun _ => half_unit) _ (by
    simp only [GoodT, GoodS, and_true, true_and, implies_true]
    exact ⟨by simp [C77.aliased], by decide, by
      intro e he
      simp only [C77.aliased, List.mem_cons, List.not_mem_nil, or_false] at he
      rcases he with rfl | rfl | rfl <;> simp [InRange, int32, Width.modulus]⟩) _ _

example (f : Dbl) : InUnit (defaultRand f 2147483647 2147483646) :=
  (C77_default_rand f 2147483647 2147483646 (by omega) (by omega) (by omega)).1.2 (by omega)

example (f : Dbl) (v : RV) : ∃ r, InUnit r ∧ init f (fun _ => r) (.enum [([97], 0), ([98], 5)]) v 0 = some (.int 5, 1) :=
  C77_enum_reach f _ (by decide +kernel) (by decide) (by
    intro e he
    simp only [List.mem_cons, List.not_mem_nil, or_false] at he
    rcases he with rfl | rfl <;> simp [InRange, int32, Width.modulus]) ([98], 5) (by simp) v

example (f : Dbl) (v : RV) : init f (fun _ => defaultRand f 2147483647 2147483647)
    (.enum [([97], 0), ([98], 1)]) v 0 = none :=
  C77_enum_fails f 2147483647 (by omega) (by omega) _ (by decide +kernel) (by decide) v

end Verif.RandomInit
