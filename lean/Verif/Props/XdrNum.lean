import Verif.XdrNum
import Verif.Props.Xdr
/- C112 -/
namespace Verif.XdrNum
open Verif.Xdr (Op X exec fresh written expected Valid)

/-! ### Specification -/

/-- The numbers a type has on a machine; of floating point numbers the bit patterns, as numbers. -/
def C112.Has (m : Machine) (v : Int) : T → Prop
  | .bool => v = 0 ∨ v = 1
  | .char => if m.charSigned then -128 ≤ v ∧ v < 128 else 0 ≤ v ∧ v < 256
  | .schar => -128 ≤ v ∧ v < 128
  | .uchar => 0 ≤ v ∧ v < 256
  | .wchar =>
    if m.wchar4 then (if m.wcharSigned then -2147483648 ≤ v ∧ v < 2147483648 else 0 ≤ v ∧ v < 4294967296)
    else (if m.wcharSigned then -32768 ≤ v ∧ v < 32768 else 0 ≤ v ∧ v < 65536)
  | .short => -32768 ≤ v ∧ v < 32768
  | .ushort => 0 ≤ v ∧ v < 65536
  | .int => -2147483648 ≤ v ∧ v < 2147483648
  | .uint | .float => 0 ≤ v ∧ v < 4294967296
  | .long => if m.long8 then -9223372036854775808 ≤ v ∧ v < 9223372036854775808 else -2147483648 ≤ v ∧ v < 2147483648
  | .ulong => if m.long8 then 0 ≤ v ∧ v < 18446744073709551616 else 0 ≤ v ∧ v < 4294967296
  | .llong => -9223372036854775808 ≤ v ∧ v < 9223372036854775808
  | .ullong | .double => 0 ≤ v ∧ v < 18446744073709551616
  | .ldouble => 0 ≤ v ∧ v < 340282366920938463463374607431768211456

/-- The bytes of a number, by their addresses. -/
def C112.bytes (big : Bool) (n : Nat) (v : Int) : Bytes :=
  (List.range n).map fun i => UInt8.ofNat ((v / (256 ^ (if big then n - 1 - i else i) : Nat)) % 256).toNat

/-- The object of a type with a value. -/
def C112.object (m : Machine) (t : T) (v : Int) : Bytes := bytes m.big (size m t) v

/-- Numbers of type long that a long of four bytes has as well. -/
def C112.Short (v : Int) : T → Prop
  | .long => -2147483648 ≤ v ∧ v < 2147483648
  | .ulong => 0 ≤ v ∧ v < 4294967296
  | _ => True

open C112

/-! ### Bytes -/

private theorem le_length : ∀ n k, (le n k).length = n
  | 0, _ => rfl
  | n + 1, k => by simp [le, le_length n]

private theorem nat_le : ∀ n k, nat (le n k) = k % 256 ^ n
  | 0, k => by simp [le, nat, Nat.mod_one]
  | n + 1, k => by
    have h1 : (UInt8.ofNat (k % 256)).toNat = k % 256 := by simp
    rw [le, nat, nat_le n, h1, Nat.pow_succ, Nat.mul_comm (256 ^ n) 256, Nat.mod_mul]

private theorem le_range : ∀ n k, le n k = (List.range n).map fun i => UInt8.ofNat ((k / 256 ^ i) % 256)
  | 0, _ => rfl
  | n + 1, k => by
    rw [le, le_range n, List.range_succ_eq_map]
    simp only [List.map_cons, Nat.pow_zero, Nat.div_one, List.map_map]
    congr 1
    apply List.map_congr_left
    intro i _
    simp only [Function.comp, Nat.div_div_eq_div_mul, Nat.succ_eq_add_one]
    rw [Nat.pow_succ, Nat.mul_comm]

private theorem digit (n i : Nat) (h : i < n) (v : Int) : ((v % ((256 ^ n : Nat) : Int)).toNat / 256 ^ i) % 256 = ((v / ((256 ^ i : Nat) : Int)) % 256).toNat := by
  have hp : (0 : Int) < ((256 ^ n : Nat) : Int) := by have : 0 < 256 ^ n := Nat.pow_pos (by omega); omega
  have hi : (0 : Int) < ((256 ^ i : Nat) : Int) := by have : 0 < 256 ^ i := Nat.pow_pos (by omega); omega
  have h0 := Int.emod_nonneg v (b := ((256 ^ n : Nat) : Int)) (by omega)
  obtain ⟨d, rfl⟩ : ∃ d, n = i + 1 + d := ⟨n - i - 1, by omega⟩
  have e : ((256 ^ (i + 1 + d) : Nat) : Int) = ((256 ^ i : Nat) : Int) * (256 * ((256 ^ d : Nat) : Int)) := by
    rw [Nat.pow_add, Nat.pow_add]; simp [Int.mul_assoc]
  obtain ⟨q, hv⟩ : ∃ q, v = (v % ((256 ^ (i + 1 + d) : Nat) : Int)) + ((256 ^ i : Nat) : Int) * (256 * q) := by
    refine ⟨((256 ^ d : Nat) : Int) * (v / ((256 ^ (i + 1 + d) : Nat) : Int)), ?_⟩
    have := Int.emod_add_mul_ediv v ((256 ^ (i + 1 + d) : Nat) : Int)
    generalize v / ((256 ^ (i + 1 + d) : Nat) : Int) = q at this ⊢
    generalize v % ((256 ^ (i + 1 + d) : Nat) : Int) = r at this ⊢
    rw [e, Int.mul_assoc, Int.mul_assoc] at this
    exact this.symm
  have key : (v / ((256 ^ i : Nat) : Int)) % 256 = ((v % ((256 ^ (i + 1 + d) : Nat) : Int)) / ((256 ^ i : Nat) : Int)) % 256 := by
    generalize v % ((256 ^ (i + 1 + d) : Nat) : Int) = r at hv
    rw [hv, Int.add_mul_ediv_left _ _ (by omega), Int.add_mul_emod_self_left]
  rw [key]
  generalize v % ((256 ^ (i + 1 + d) : Nat) : Int) = r at h0
  obtain ⟨k, rfl⟩ := Int.eq_ofNat_of_zero_le h0
  simp only [Int.toNat_natCast]
  rw [← Int.natCast_ediv]
  omega

private theorem rep_bytes (b : Bool) (n : Nat) (v : Int) : rep b n v = bytes b n v := by
  have h : le n (v % ((256 ^ n : Nat) : Int)).toNat = (List.range n).map fun i => UInt8.ofNat ((v / (256 ^ i : Nat)) % 256).toNat := by
    rw [le_range]
    apply List.map_congr_left
    intro i hi
    rw [digit n i (List.mem_range.1 hi)]
  unfold rep C112.bytes
  rw [h]
  cases b with
  | false => rfl
  | true =>
    simp only [if_true]
    apply List.ext_getElem (by simp)
    intro i h1 h2
    simp

private theorem rep_length (b : Bool) (n : Nat) (v : Int) : (rep b n v).length = n := by
  unfold rep; cases b <;> simp [le_length]

private theorem pow_pos (n : Nat) : (0 : Int) < ((256 ^ n : Nat) : Int) := by
  have : 0 < 256 ^ n := Nat.pow_pos (by omega)
  omega

private theorem nat_rep (b : Bool) (n : Nat) (v : Int) :
    ((nat (if b = true then (rep b n v).reverse else rep b n v) : Nat) : Int) = v % (256 ^ n : Nat) := by
  have hp := pow_pos n
  have h0 := Int.emod_nonneg v (b := ((256 ^ n : Nat) : Int)) (by omega)
  have h1 := Int.emod_lt_of_pos v hp
  have h2 : (v % ((256 ^ n : Nat) : Int)).toNat % 256 ^ n = (v % ((256 ^ n : Nat) : Int)).toNat := by
    apply Nat.mod_eq_of_lt; omega
  have h3 : (if b = true then (rep b n v).reverse else rep b n v) = le n (v % (256 ^ n : Nat)).toNat := by
    unfold rep; cases b <;> simp
  rw [h3, nat_le, h2]
  omega

private theorem rep_congr (b : Bool) (n : Nat) (v w : Int) (h : v % ((256 ^ n : Nat) : Int) = w % ((256 ^ n : Nat) : Int)) : rep b n v = rep b n w := by
  unfold rep; rw [h]

private theorem ranges (v : Int) :
    (fits true 1 v = true ↔ -128 ≤ v ∧ v < 128) ∧ (fits false 1 v = true ↔ 0 ≤ v ∧ v < 256) ∧
    (fits true 2 v = true ↔ -32768 ≤ v ∧ v < 32768) ∧ (fits false 2 v = true ↔ 0 ≤ v ∧ v < 65536) ∧
    (fits true 4 v = true ↔ -2147483648 ≤ v ∧ v < 2147483648) ∧ (fits false 4 v = true ↔ 0 ≤ v ∧ v < 4294967296) ∧
    (fits true 8 v = true ↔ -9223372036854775808 ≤ v ∧ v < 9223372036854775808) ∧ (fits false 8 v = true ↔ 0 ≤ v ∧ v < 18446744073709551616) := by
  have h1 : (256 ^ 1 : Nat) = 256 := rfl
  have h2 : (256 ^ 2 : Nat) = 65536 := rfl
  have h4 : (256 ^ 4 : Nat) = 4294967296 := rfl
  have h8 : (256 ^ 8 : Nat) = 18446744073709551616 := rfl
  simp only [fits, if_true, Bool.false_eq_true, if_false, Bool.and_eq_true, decide_eq_true_eq, h1, h2, h4, h8]
  omega

private theorem f1s {v : Int} : fits true 1 v = true ↔ -128 ≤ v ∧ v < 128 := (ranges v).1
private theorem f1u {v : Int} : fits false 1 v = true ↔ 0 ≤ v ∧ v < 256 := (ranges v).2.1
private theorem f2s {v : Int} : fits true 2 v = true ↔ -32768 ≤ v ∧ v < 32768 := (ranges v).2.2.1
private theorem f2u {v : Int} : fits false 2 v = true ↔ 0 ≤ v ∧ v < 65536 := (ranges v).2.2.2.1
private theorem f4s {v : Int} : fits true 4 v = true ↔ -2147483648 ≤ v ∧ v < 2147483648 := (ranges v).2.2.2.2.1
private theorem f4u {v : Int} : fits false 4 v = true ↔ 0 ≤ v ∧ v < 4294967296 := (ranges v).2.2.2.2.2.1
private theorem f8s {v : Int} : fits true 8 v = true ↔ -9223372036854775808 ≤ v ∧ v < 9223372036854775808 := (ranges v).2.2.2.2.2.2.1
private theorem f8u {v : Int} : fits false 8 v = true ↔ 0 ≤ v ∧ v < 18446744073709551616 := (ranges v).2.2.2.2.2.2.2

/-- Reading the bytes of a number as a number of whatever sign changes it by a multiple of the range. -/
private theorem num_rep_mod (b s : Bool) (n : Nat) (v : Int) : num b s (rep b n v) % ((256 ^ n : Nat) : Int) = v % ((256 ^ n : Nat) : Int) := by
  unfold num
  simp only [nat_rep, rep_length]
  split
  · rw [Int.sub_emod_right, Int.emod_emod]
  · rw [Int.emod_emod]

private theorem num_rep (b s : Bool) (n : Nat) (v : Int) (h : fits s n v = true) : num b s (rep b n v) = v := by
  have hp := pow_pos n
  unfold num
  simp only [nat_rep, rep_length]
  unfold fits at h
  cases s with
  | false =>
    simp only [Bool.false_eq_true, if_false, Bool.and_eq_true, decide_eq_true_eq, false_and] at h ⊢
    exact Int.emod_eq_of_lt h.1 h.2
  | true =>
    simp only [if_true, Bool.and_eq_true, decide_eq_true_eq, true_and] at h ⊢
    by_cases hv : 0 ≤ v
    · have : v % ((256 ^ n : Nat) : Int) = v := Int.emod_eq_of_lt hv (by omega)
      rw [this, if_neg (by omega)]
    · have : v % ((256 ^ n : Nat) : Int) = v + (256 ^ n : Nat) := by
        rw [← Int.add_emod_right]
        exact Int.emod_eq_of_lt (by omega) (by omega)
      rw [this, if_pos (by omega)]
      omega

private theorem mod_pow (a c : Nat) (h : a ≤ c) (v w : Int) (e : v % ((256 ^ c : Nat) : Int) = w % ((256 ^ c : Nat) : Int)) :
    v % ((256 ^ a : Nat) : Int) = w % ((256 ^ a : Nat) : Int) := by
  have hd : ((256 ^ a : Nat) : Int) ∣ ((256 ^ c : Nat) : Int) := Int.natCast_dvd_natCast.2 (Nat.pow_dvd_pow 256 h)
  rw [← Int.emod_emod_of_dvd v hd, e, Int.emod_emod_of_dvd w hd]

/-- A filter whose number is not larger than what it takes in the stream. -/
private theorem narrow (strict : Bool) (m m' : Machine) (f : F) (v : Int) (h : csize m f ≤ wire f) (h' : csize m' f = csize m f) (old : Bytes)
    (ho : old.length = csize m f) : ∃ w, encode strict m f (rep m.big (csize m f) v) = .ok w ∧ w.length = wire f ∧
      decode m' f w old = .ok (rep m'.big (csize m f) v) := by
  refine ⟨rep true (wire f) (num m.big (csigned m f) (rep m.big (csize m f) v)), ?_, rep_length _ _ _, ?_⟩
  · unfold encode
    have : (rep m.big (csize m f) v).take (csize m f) = rep m.big (csize m f) v := List.take_of_length_le (by rw [rep_length]; exact Nat.le_refl _)
    rw [if_neg (by rw [rep_length]; omega), this]
    simp only
    rw [if_neg (by omega)]
  · unfold decode
    rw [if_neg (by omega), h', List.drop_of_length_le (by omega), List.append_nil]
    congr 1
    apply rep_congr
    have e1 := num_rep_mod true (wsigned f) (wire f) (num m.big (csigned m f) (rep m.big (csize m f) v))
    rw [mod_pow _ _ h _ _ e1, num_rep_mod]

/-- The filters for long. -/
private theorem wide (strict : Bool) (m m' : Machine) (f : F) (v : Int) (hf : f = .long ∨ f = .ulong) (h : fits (wsigned f) 4 v = true) (old : Bytes)
    (ho : old.length = csize m' f) : ∃ w, encode strict m f (rep m.big (csize m f) v) = .ok w ∧ w.length = wire f ∧
      decode m' f w old = .ok (rep m'.big (csize m' f) v) := by
  have hw : wire f = 4 := by rcases hf with rfl | rfl <;> rfl
  have hc : csigned m f = wsigned f := by rcases hf with rfl | rfl <;> rfl
  have h8 : csize m f = 8 ∨ csize m f = 4 := by rcases hf with rfl | rfl <;> (simp only [csize]; cases m.long8 <;> simp)
  have hv : num m.big (csigned m f) (rep m.big (csize m f) v) = v := by
    apply num_rep
    rw [hc]
    rcases h8 with e | e
    · rw [e]
      unfold fits at h ⊢
      cases hs : wsigned f <;> simp only [hs, Bool.false_eq_true, if_false, if_true, Bool.and_eq_true, decide_eq_true_eq] at h ⊢ <;> constructor <;> omega
    · rw [e]; exact h
  refine ⟨rep true 4 v, ?_, by rw [rep_length, hw], ?_⟩
  · unfold encode
    have : (rep m.big (csize m f) v).take (csize m f) = rep m.big (csize m f) v := List.take_of_length_le (by rw [rep_length]; exact Nat.le_refl _)
    rw [if_neg (by rw [rep_length]; omega), this]
    simp only [hv, hw, h]
    simp
  · unfold decode
    rw [if_neg (by omega), List.drop_of_length_le (by omega), List.append_nil, num_rep _ _ _ _ h]

private theorem fits_num (b s : Bool) (l : Bytes) : fits s l.length (num b s l) = true := by
  have hp := pow_pos l.length
  have hb : ∀ l : Bytes, nat l < 256 ^ l.length := by
    intro l
    induction l with
    | nil => simp [nat]
    | cons c l ih =>
      have := c.toNat_lt
      simp only [nat, List.length_cons, Nat.pow_succ]
      omega
  have h := hb (if b = true then l.reverse else l)
  have hl : (if b = true then l.reverse else l).length = l.length := by cases b <;> simp
  rw [hl] at h
  unfold num fits
  generalize nat (if b = true then l.reverse else l) = u at h
  cases s with
  | false => simp only [Bool.false_eq_true, if_false, false_and, Bool.and_eq_true, decide_eq_true_eq]; omega
  | true =>
    simp only [if_true, true_and, Bool.and_eq_true, decide_eq_true_eq]
    split <;> omega

/-- A filter given a number that is the same for it. -/
private theorem exact_ (strict : Bool) (m : Machine) (f : F) (v : Int) (h : fits (csigned m f) (csize m f) v = true) :
    encode strict m f (rep m.big (csize m f) v) =
      if wire f < csize m f ∧ strict = true ∧ fits (wsigned f) (wire f) v = false then .throw else .ok (rep true (wire f) v) := by
  unfold encode
  have : (rep m.big (csize m f) v).take (csize m f) = rep m.big (csize m f) v := List.take_of_length_le (by rw [rep_length]; exact Nat.le_refl _)
  rw [if_neg (by rw [rep_length]; omega), this]
  simp only [num_rep _ _ _ _ h]

/-! ### Theorems -/

/-- **C112**: a number packed on one machine is unpacked on another as the same number, if the type has it on both. -/
theorem C112_portable_partial (strict : Bool) (m m' : Machine) (t : T) (v : Int) (h : Has m v t) (h' : Has m' v t) (hl : t ≠ .ldouble)
    (hw : t = .wchar → m.wchar4 = true ∧ m'.wchar4 = true) (hs : Short v t) (old : Bytes) (ho : old.length = size m' t) :
    ∃ w, put strict m t (object m t v) = .ok w ∧ (w.length = 4 ∨ w.length = 8) ∧ get m' t w old = .ok (object m' t v) := by
  have wl : ∀ f, wire f = 4 ∨ wire f = 8 := by intro f; cases f <;> simp [wire]
  have nar : ∀ f, filter t = some f → csize m f ≤ wire f → csize m' f = csize m f → size m t = csize m f → size m' t = csize m f →
      ∃ w, put strict m t (object m t v) = .ok w ∧ (w.length = 4 ∨ w.length = 8) ∧ get m' t w old = .ok (object m' t v) := by
    intro f hf h1 h2 h3 h4
    obtain ⟨w, g1, g2, g3⟩ := narrow strict m m' f v h1 h2 old (by omega)
    refine ⟨w, ?_, by rw [g2]; exact wl f, ?_⟩
    · simp only [put, hf, object, h3, ← rep_bytes, g1]
    · simp only [get, hf, object, h4, ← rep_bytes, g3]
  have wid : ∀ f, filter t = some f → (f = .long ∨ f = .ulong) → fits (wsigned f) 4 v = true → size m t = csize m f → size m' t = csize m' f →
      ∃ w, put strict m t (object m t v) = .ok w ∧ (w.length = 4 ∨ w.length = 8) ∧ get m' t w old = .ok (object m' t v) := by
    intro f hf h1 h2 h3 h4
    obtain ⟨w, g1, g2, g3⟩ := wide strict m m' f v h1 h2 old (by omega)
    refine ⟨w, ?_, by rw [g2]; exact wl f, ?_⟩
    · simp only [put, hf, object, h3, ← rep_bytes, g1]
    · simp only [get, hf, object, h4, ← rep_bytes, g3]
  cases t with
  | ldouble => exact absurd rfl hl
  | long => exact wid .long rfl (.inl rfl) (f4s.2 hs) rfl rfl
  | ulong => exact wid .ulong rfl (.inr rfl) (f4u.2 hs) rfl rfl
  | wchar =>
    obtain ⟨h1, h2⟩ := hw rfl
    exact nar .uint rfl (by simp [csize, wire]) rfl (by simp [size, csize, h1]) (by simp [size, csize, h2])
  | _ => exact nar _ rfl (by simp [csize, wire]) rfl rfl rfl

/-- A number that both machines have, as `C112_portable_partial` takes it. -/
def C112.Good (m m' : Machine) (p : T × Int) : Prop :=
  Has m p.2 p.1 ∧ Has m' p.2 p.1 ∧ p.1 ≠ .ldouble ∧ (p.1 = .wchar → m.wchar4 = true ∧ m'.wchar4 = true) ∧ Short p.2 p.1

private theorem expected_reads : ∀ (ws : List Bytes) (w : Bytes) (r : Nat), w.drop r = ws.flatten → expected w r (ws.map fun x => .read x.length) = ws
  | [], _, _, _ => rfl
  | a :: ws, w, r, h => by
    rw [List.flatten_cons] at h
    have ih := expected_reads ws w (r + a.length) (by rw [← List.drop_drop, h]; simp)
    rw [List.map_cons, expected, ih, h]
    simp

private theorem expected_writes (k : List Op) : ∀ (ws : List Bytes) (w : Bytes) (r : Nat),
    expected w r (ws.map Op.write ++ k) = expected (w ++ ws.flatten) r k
  | [], w, r => by simp
  | a :: ws, w, r => by rw [List.map_cons, List.cons_append, expected, expected_writes k ws]; simp

private theorem written_ops : ∀ (ws us : List Bytes), written (ws.map Op.write ++ us.map fun x => .read x.length) = ws.flatten
  | [], [] => rfl
  | [], a :: us => by
    have := written_ops [] us
    simpa [written] using this
  | a :: ws, us => by
    have := written_ops ws us
    simp only [List.map_cons, List.cons_append, written, this, List.flatten_cons]

private theorem valid_reads : ∀ (us : List Bytes) (w r : Nat), r + us.flatten.length ≤ w → Valid w r (us.map fun x => .read x.length)
  | [], _, _, _ => trivial
  | a :: us, w, r, h => by
    rw [List.flatten_cons, List.length_append] at h
    exact ⟨by omega, valid_reads us w (r + a.length) (by omega)⟩

private theorem valid_ops : ∀ (ws us : List Bytes) (w r : Nat), (∀ x ∈ ws, 4 ≤ x.length) → r + us.flatten.length ≤ w + ws.flatten.length →
    Valid w r (ws.map Op.write ++ us.map fun x => .read x.length)
  | [], us, w, r, _, h => valid_reads us w r (by simpa using h)
  | a :: ws, us, w, r, h4, h => by
    rw [List.flatten_cons, List.length_append] at h
    exact ⟨h4 a (by simp), valid_ops ws us _ r (fun x hx => h4 x (by simp [hx])) (by omega)⟩

/-- Any sequence of them, through the buffer of C71. -/
theorem C112_stream_partial (strict : Bool) (m m' : Machine) (vs : List (T × Int)) (hg : ∀ p ∈ vs, Good m m' p) (mem : Nat → UInt8) (sz : Nat)
    (h1 : 8 * vs.length ≤ 1020) (h2 : 8 * vs.length ≤ sz) :
    ∃ ws x', ws.length = vs.length ∧ (∀ p ∈ vs.zip ws, put strict m p.1.1 (object m p.1.1 p.1.2) = .ok p.2) ∧
      exec (fresh mem sz) (ws.map Op.write ++ ws.map fun w => .read w.length) = some (ws, x') ∧
      ∀ p ∈ vs.zip ws, ∀ old : Bytes, old.length = size m' p.1.1 → get m' p.1.1 p.2 old = .ok (object m' p.1.1 p.1.2) := by
  have key : ∃ ws : List Bytes, ws.length = vs.length ∧ (∀ p ∈ vs.zip ws, put strict m p.1.1 (object m p.1.1 p.1.2) = .ok p.2) ∧
      (∀ x ∈ ws, 4 ≤ x.length) ∧ ws.flatten.length ≤ 8 * ws.length ∧
      ∀ p ∈ vs.zip ws, ∀ old : Bytes, old.length = size m' p.1.1 → get m' p.1.1 p.2 old = .ok (object m' p.1.1 p.1.2) := by
    clear h1 h2
    induction vs with
    | nil => exact ⟨[], rfl, by simp, by simp, by simp, by simp⟩
    | cons a vs ih =>
      obtain ⟨ws, i1, i2, i3, i4, i5⟩ := ih fun p hp => hg p (by simp [hp])
      obtain ⟨g1, g2, g3, g4, g5⟩ := hg a (by simp)
      have hp := fun old ho => C112_portable_partial strict m m' a.1 a.2 g1 g2 g3 g4 g5 old ho
      obtain ⟨w, w1, w2, _⟩ := hp (List.replicate (size m' a.1) 0) (by simp)
      refine ⟨w :: ws, by simp [i1], ?_, ?_, ?_, ?_⟩
      · intro p hm
        rw [List.zip_cons_cons, List.mem_cons] at hm
        rcases hm with rfl | hm
        · exact w1
        · exact i2 p hm
      · intro x hx
        rcases List.mem_cons.1 hx with rfl | hx
        · omega
        · exact i3 x hx
      · simp only [List.flatten_cons, List.length_append, List.length_cons]; omega
      · intro p hm
        rw [List.zip_cons_cons, List.mem_cons] at hm
        rcases hm with rfl | hm
        · intro old ho
          obtain ⟨w', v1, _, v3⟩ := hp old ho
          rw [w1] at v1
          cases v1
          exact v3
        · exact i5 p hm
  obtain ⟨ws, k1, k2, k3, k4, k5⟩ := key
  have hw := written_ops ws ws
  obtain ⟨x', e, _⟩ := Verif.Xdr.C71_fifo_partial mem sz (ws.map Op.write ++ ws.map fun w => .read w.length)
    (valid_ops ws ws 0 0 k3 (by omega)) (by rw [hw]; omega) (by rw [hw]; omega)
  rw [expected_writes, expected_reads _ _ _ (by simp)] at e
  exact ⟨ws, x', k1, k2, e, k5⟩

/-- The data are those of the standard, on every machine: numbers not negative, most significant byte first. -/
theorem C112_data (strict : Bool) (m : Machine) (t : T) (v : Int) (h : Has m v t) (hl : t ≠ .ldouble) (hw : t = .wchar → m.wchar4 = true) (hs : Short v t)
    (h0 : 0 ≤ v) : put strict m t (object m t v) = .ok (bytes true (if t = .llong ∨ t = .ullong ∨ t = .double then 8 else 4) v) := by
  have key : ∀ f, filter t = some f → size m t = csize m f → fits (csigned m f) (csize m f) v = true → (csize m f ≤ wire f ∨ fits (wsigned f) (wire f) v = true) →
      put strict m t (object m t v) = .ok (bytes true (wire f) v) := by
    intro f h1 h2 h3 h4
    simp only [put, h1, object, h2, ← rep_bytes]
    rw [exact_ strict m f v h3, if_neg]
    rintro ⟨g1, _, g3⟩
    rcases h4 with h4 | h4
    · omega
    · rw [h4] at g3; cases g3
  cases t with
  | ldouble => exact absurd rfl hl
  | long =>
    refine key .long rfl rfl ?_ (.inr (f4s.2 hs))
    simp only [Has] at h
    simp only [csize, csigned]
    split at h
    · rw [if_pos ‹_›]; exact f8s.2 h
    · rw [if_neg ‹_›]; exact f4s.2 h
  | ulong =>
    refine key .ulong rfl rfl ?_ (.inr (f4u.2 hs))
    simp only [Has] at h
    simp only [csize, csigned]
    split at h
    · rw [if_pos ‹_›]; exact f8u.2 h
    · rw [if_neg ‹_›]; exact f4u.2 h
  | wchar =>
    have hw := hw rfl
    refine key .uint rfl (by simp [size, csize, hw]) (f4u.2 ?_) (.inl (by simp [csize, wire]))
    simp only [Has, hw, if_true] at h
    split at h <;> omega
  | char =>
    refine key .char rfl rfl ?_ (.inl (by simp [csize, wire]))
    simp only [Has] at h
    simp only [csize, csigned]
    split at h
    · rw [‹m.charSigned = true›]; exact f1s.2 h
    · rw [show m.charSigned = false from Bool.eq_false_iff.2 ‹_›]; exact f1u.2 h
  | bool =>
    refine key .char rfl rfl ?_ (.inl (by simp [csize, wire]))
    simp only [Has] at h
    simp only [csize, csigned]
    cases m.charSigned
    · exact f1u.2 (by omega)
    · exact f1s.2 (by omega)
  | schar =>
    refine key .char rfl rfl ?_ (.inl (by simp [csize, wire]))
    simp only [Has] at h
    simp only [csize, csigned]
    cases m.charSigned
    · exact f1u.2 (by omega)
    · exact f1s.2 (by omega)
  | uchar => exact key .uchar rfl rfl (f1u.2 h) (.inl (by simp [csize, wire]))
  | short => exact key .short rfl rfl (f2s.2 h) (.inl (by simp [csize, wire]))
  | ushort => exact key .ushort rfl rfl (f2u.2 h) (.inl (by simp [csize, wire]))
  | int => exact key .int rfl rfl (f4s.2 h) (.inl (by simp [csize, wire]))
  | uint => exact key .uint rfl rfl (f4u.2 h) (.inl (by simp [csize, wire]))
  | float => exact key .float rfl rfl (f4u.2 h) (.inl (by simp [csize, wire]))
  | llong => exact key .hyper rfl rfl (f8s.2 h) (.inl (by simp [csize, wire]))
  | ullong => exact key .uhyper rfl rfl (f8u.2 h) (.inl (by simp [csize, wire]))
  | double => exact key .double rfl rfl (f8u.2 h) (.inl (by simp [csize, wire]))

private theorem long_of {m : Machine} {t : T} {v : Int} (h : Has m v t) (hs : ¬ Short v t) : m.long8 = true ∧ ∃ f, filter t = some f ∧
    (t = .long ∧ f = .long ∨ t = .ulong ∧ f = .ulong) ∧ fits (csigned m f) 8 v = true ∧ fits (wsigned f) 4 v = false := by
  cases t with
  | long =>
    simp only [Has] at h; simp only [Short] at hs
    split at h
    · exact ⟨‹_›, .long, rfl, .inl ⟨rfl, rfl⟩, f8s.2 h, Bool.eq_false_iff.2 fun g => hs (f4s.1 g)⟩
    · exact absurd h hs
  | ulong =>
    simp only [Has] at h; simp only [Short] at hs
    split at h
    · exact ⟨‹_›, .ulong, rfl, .inr ⟨rfl, rfl⟩, f8u.2 h, Bool.eq_false_iff.2 fun g => hs (f4u.1 g)⟩
    · exact absurd h hs
  | _ => exact absurd trivial hs

/-- What cannot be represented is refused, by a library that checks; a long double always. -/
theorem C112_refused (m : Machine) (t : T) (v : Int) (h : Has m v t) (hs : ¬ Short v t) : put true m t (object m t v) = .throw := by
  obtain ⟨h8, f, hf, hc, h1, h2⟩ := long_of h hs
  have hz : size m t = 8 ∧ csize m f = 8 ∧ wire f = 4 := by rcases hc with ⟨rfl, rfl⟩ | ⟨rfl, rfl⟩ <;> simp [size, csize, wire, h8]
  simp only [put, hf, object, ← rep_bytes, hz.1]
  have := exact_ true m f v (by rw [hz.2.1]; exact h1)
  rw [hz.2.1, hz.2.2] at this
  rw [this, if_pos ⟨by omega, rfl, h2⟩]

theorem C112_ldouble (strict : Bool) (m m' : Machine) (obj w old : Bytes) : put strict m .ldouble obj = .throw ∧ get m' .ldouble w old = .throw := ⟨rfl, rfl⟩

/-- A long that needs more than four bytes cannot be packed even if both machines have it: it is refused, or another number comes out. -/
theorem C112_fails_long (strict : Bool) (m m' : Machine) (t : T) (v : Int) (h : Has m v t) (hs : ¬ Short v t) (h8 : m'.long8 = true) (old : Bytes)
    (ho : old.length = 8) : put strict m t (object m t v) = .throw ∨
      ∃ w v', put strict m t (object m t v) = .ok w ∧ get m' t w old = .ok (object m' t v') ∧ Has m' v' t ∧ v' ≠ v := by
  cases strict with
  | true => exact .inl (C112_refused m t v h hs)
  | false =>
    obtain ⟨h8', f, hf, hc, h1, h2⟩ := long_of h hs
    have hz : size m t = 8 ∧ csize m f = 8 ∧ wire f = 4 ∧ size m' t = 8 ∧ csize m' f = 8 := by
      rcases hc with ⟨rfl, rfl⟩ | ⟨rfl, rfl⟩ <;> simp [size, csize, wire, h8, h8']
    have he := exact_ false m f v (by rw [hz.2.1]; exact h1)
    rw [hz.2.1, hz.2.2.1, if_neg (by simp)] at he
    have hn := fits_num true (wsigned f) (rep true 4 v)
    rw [rep_length] at hn
    refine .inr ⟨rep true 4 v, num true (wsigned f) (rep true 4 v), ?_, ?_, ?_, ?_⟩
    · simp only [put, hf, object, ← rep_bytes, hz.1, he]
    · simp only [get, hf, object, ← rep_bytes, hz.2.2.2.1, decode, hz.2.2.2.2, ho]
      simp [ho]
    · generalize num true (wsigned f) (rep true 4 v) = u at hn
      rcases hc with ⟨rfl, rfl⟩ | ⟨rfl, rfl⟩
      · have := f4s.1 hn; simp only [Has, h8, if_true]; omega
      · have := f4u.1 hn; simp only [Has, h8, if_true]; omega
    · intro e
      rw [e, h2] at hn
      cases hn

/-- Where wchar_t has two bytes the filter reads, and writes, four. -/
theorem C112_fails_wchar (strict : Bool) (m : Machine) (h : m.wchar4 = false) (v : Int) (w old : Bytes) (ho : old.length = 2) :
    put strict m .wchar (object m .wchar v) = .ub ∧ get m .wchar w old = .ub := by
  simp [put, get, filter, encode, decode, csize, ho, object, C112.bytes, size, h]

/-- The data are not the same on all machines: those of a signed char that is negative differ with the sign of char. -/
theorem C112_fails_same (strict : Bool) (m m' : Machine) (hc : m.charSigned = true) (hc' : m'.charSigned = false) (v : Int) (h : Has m v .schar) (hn : v < 0) :
    put strict m .schar (object m .schar v) ≠ put strict m' .schar (object m' .schar v) := by
  simp only [Has] at h
  have h1 := exact_ strict m .char v (by simp only [csize, csigned, hc]; exact f1s.2 h)
  have h2 := exact_ strict m' .char (v + 256) (by simp only [csize, csigned, hc']; exact f1u.2 (by omega))
  have e : rep m'.big 1 (v + 256) = rep m'.big 1 v := rep_congr _ _ _ _ (by simp)
  rw [if_neg (by simp [csize, wire])] at h1 h2
  simp only [csize, e] at h2
  simp only [csize] at h1
  simp only [put, filter, object, ← rep_bytes, size, h1, h2, wire]
  intro g
  have g := congrArg (num true true) (Out.ok.inj g)
  rw [num_rep _ _ _ _ (f4s.2 (by omega)), num_rep _ _ _ _ (f4s.2 (by omega))] at g
  omega

/-! ### Cases -/

/-- A common machine, and an old one of the other kind. -/
def C112.pc : Machine := ⟨false, true, true, true, true⟩
def C112.old : Machine := ⟨true, false, false, true, false⟩

example : put true pc .int (object pc .int (-2)) = .ok [255, 255, 255, 254] ∧ object pc .int (-2) = [254, 255, 255, 255] ∧
    get old .int [255, 255, 255, 254] [0, 0, 0, 0] = .ok [255, 255, 255, 254] := by decide +kernel

example : Good pc old (.long, -5) ∧ Good pc old (.schar, -1) ∧ Good pc old (.double, 4607182418800017408) := by
  simp [Good, Has, Short, pc, old]

example : put true pc .long (object pc .long 5000000000) = .throw ∧ put false pc .long (object pc .long 5000000000) = .ok [42, 5, 242, 0] := by
  decide +kernel

example : Has pc 5000000000 .long ∧ ¬ Short 5000000000 .long := by simp [Has, Short, pc]

end Verif.XdrNum
